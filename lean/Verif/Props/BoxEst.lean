import Verif.Model.BoxEst
import Verif.Props.SampleGraphAll
import Verif.Props.Sample
import Mathlib.Tactic.FinCases
import Mathlib.Tactic.Linarith

/-!
# C111: the box of a node is split in the middle of the border of the two parts
-/
namespace Verif
namespace Samp

/-! ### The edges between the parts -/

theorem foldlM_append {α β : Type} (f : List β → α → Option (List β)) (h : α → List β) (l : List α)
    (hf : ∀ x ∈ l, ∀ r, f r x = some (r ++ h x)) (r : List β) : l.foldlM f r = some (r ++ l.flatMap h) := by
  induction l generalizing r with
  | nil => simp
  | cons x l ih =>
    rw [List.foldlM_cons, hf x List.mem_cons_self]
    simp only [Option.bind_eq_bind, Option.bind_some]
    rw [ih (fun y hy => hf y (List.mem_cons_of_mem _ hy)), List.flatMap_cons, List.append_assoc]

/-- What one entry of the adjacency contributes. -/
def contrib (g : Graph) (part : List Nat) (n i : Nat) : List (Nat × Nat) :=
  match g.adj[i]?, part[n]? with
  | some a, some 0 => if part[a]? ≠ some 0 then [(n, a)] else []
  | _, _ => []

theorem borderStep_eq {g : Graph} {part : List Nat} {n i a c : Nat} (h1 : g.adj[i]? = some a) (h2 : part[n]? = some c)
    (h3 : a < part.length) (r : List (Nat × Nat)) : borderStep g part n r i = some (r ++ contrib g part n i) := by
  have h4 : part[a]? = some part[a] := List.getElem?_eq_getElem h3
  unfold borderStep contrib
  simp only [h1, h2, Option.bind_eq_bind, Option.bind_some, h4]
  by_cases hc : c = 0
  · subst hc
    by_cases he : part[a] = 0 <;> simp [he, h4]
  · rw [if_neg hc]
    cases c with
    | zero => exact absurd rfl hc
    | succ c => simp

/-- **C111 (border edges).** On the graph of a sample triangulation, the edges found are exactly the pairs of a node of
part 0 and a node of another part that share a simplex; no pair occurs twice, and no access is out of bounds. -/
theorem C111_edges {ids : List Nat} {w : Nat → Nat → Int} {S : List (List Nat)} {g : Graph} (hg : GraphOk ids w S g)
    {part : List Nat} (hp : part.length = ids.length) :
    ∃ l, borderEdges g part = some l ∧ l.Nodup ∧ ∀ n a, (n, a) ∈ l ↔
      part[n]? = some 0 ∧ (∃ c, part[a]? = some c ∧ c ≠ 0) ∧
        ∃ vs ∈ S, ∃ p ∈ vs, ∃ q ∈ vs, ids[n]? = some p ∧ ids[a]? = some q := by
  have hlen := hg.len
  have rec1 : ∀ n, n < ids.length → ∃ lo hi, g.recs[n]? = some lo ∧ g.recs[n + 1]? = some hi ∧ hi ≤ g.adj.length := by
    have key : ∀ m n, n + m = ids.length → ∃ hi, g.recs[n]? = some hi ∧ hi ≤ g.adj.length := by
      intro m
      induction m with
      | zero =>
        intro n hn
        obtain rfl : n = ids.length := by omega
        exact ⟨_, hg.last, le_refl _⟩
      | succ m ih =>
        intro n hn
        obtain ⟨hi, h1, h2⟩ := ih (n + 1) (by omega)
        have h0 : g.recs[n]? = some g.recs[n] := List.getElem?_eq_getElem (by omega)
        exact ⟨_, h0, (hg.mono n _ _ h0 h1).trans h2⟩
    intro n hn
    obtain ⟨hi, h1, h2⟩ := key (ids.length - (n + 1)) (n + 1) (by omega)
    have h0 : g.recs[n]? = some g.recs[n] := List.getElem?_eq_getElem (by omega)
    exact ⟨_, hi, h0, h1, h2⟩
  have adj1 : ∀ n lo hi, g.recs[n]? = some lo → g.recs[n + 1]? = some hi → ∀ i, lo ≤ i → i < hi → ∀ a, g.adj[i]? = some a →
      a < ids.length := by
    intro n lo hi h1 h2 i hi1 hi2 a ha
    obtain ⟨_, _, _, _, _, q, _, _, h3⟩ := (hg.mem n lo hi h1 h2 a).mp ⟨i, hi1, hi2, ha⟩
    exact (List.getElem?_eq_some_iff.mp h3).1
  have bnd : ∀ n, n < ids.length →
      ∀ r, borderNode g part r n =
        some (r ++ (List.range' (g.recs[n]?.getD 0) (g.recs[n + 1]?.getD 0 - g.recs[n]?.getD 0)).flatMap (contrib g part n)) := by
    intro n hn r
    obtain ⟨lo, hi, h1, h2, h3⟩ := rec1 n hn
    unfold borderNode
    simp only [h1, h2, Option.bind_eq_bind, Option.bind_some, Option.getD_some]
    apply foldlM_append
    intro i hi1 r
    rw [List.mem_range'_1] at hi1
    have ha : g.adj[i]? = some g.adj[i] := List.getElem?_eq_getElem (by omega)
    have hc : part[n]? = some part[n] := List.getElem?_eq_getElem (by omega)
    refine borderStep_eq ha hc ?_ r
    rw [hp]
    exact adj1 n lo hi h1 h2 i hi1.1 (by omega) _ ha
  have hmem : ∀ n i x, x ∈ contrib g part n i ↔
      ∃ a, g.adj[i]? = some a ∧ part[n]? = some 0 ∧ part[a]? ≠ some 0 ∧ x = (n, a) := by
    intro n i x
    unfold contrib
    split
    · rename_i a h1 h2
      by_cases h : part[a]? = some 0
      · simp only [ne_eq, h, not_true_eq_false, if_false, List.not_mem_nil, false_iff]
        rintro ⟨a', h1', _, h3, _⟩
        exact h3 (by rw [h1] at h1'; cases h1'; exact h)
      · simp only [ne_eq, h, not_false_eq_true, if_true, List.mem_singleton]
        constructor
        · rintro rfl
          exact ⟨a, h1, h2, h, rfl⟩
        · rintro ⟨a', h1', _, _, rfl⟩
          rw [h1] at h1'
          cases h1'
          rfl
    · rename_i h1
      simp only [List.not_mem_nil, false_iff]
      rintro ⟨a, h2, h3, _⟩
      exact h1 a h2 h3
  have hall : borderEdges g part = some ([] ++ (List.range ids.length).flatMap fun n =>
      (List.range' (g.recs[n]?.getD 0) (g.recs[n + 1]?.getD 0 - g.recs[n]?.getD 0)).flatMap (contrib g part n)) := by
    unfold borderEdges
    rw [show g.recs.length - 1 = ids.length by omega]
    exact foldlM_append _ _ _ (fun n hn r => bnd n (List.mem_range.1 hn) r) _
  refine ⟨_, hall, ?_, ?_⟩
  · rw [List.nil_append, List.nodup_flatMap]
    constructor
    · intro n hn
      obtain ⟨lo, hi, h1, h2, h3⟩ := rec1 n (List.mem_range.1 hn)
      rw [List.nodup_flatMap]
      constructor
      · intro i _
        unfold contrib
        split
        · split <;> simp
        · simp
      · simp only [h1, h2, Option.getD_some]
        refine List.Pairwise.imp_of_mem ?_ (List.nodup_range' (s := lo) (n := hi - lo) (step := 1))
        intro i j hi1 hj1 hij x hx hy
        obtain ⟨a, ha, _, _, rfl⟩ := (hmem n i x).1 hx
        obtain ⟨a', ha', _, _, he⟩ := (hmem n j _).1 hy
        cases he
        rw [List.mem_range'_1] at hi1 hj1
        exact hij (hg.once n lo hi h1 h2 a i j hi1.1 (by omega) hj1.1 (by omega) ha ha')
    · refine List.Pairwise.imp_of_mem ?_ (List.nodup_range (n := ids.length))
      intro m n _ _ hmn x hx hy
      obtain ⟨i, _, hx⟩ := List.mem_flatMap.1 hx
      obtain ⟨j, _, hy⟩ := List.mem_flatMap.1 hy
      obtain ⟨a, _, _, _, rfl⟩ := (hmem m i x).1 hx
      obtain ⟨a', _, _, _, he⟩ := (hmem n j _).1 hy
      cases he
      exact hmn rfl
  · intro n a
    rw [List.nil_append, List.mem_flatMap]
    constructor
    · rintro ⟨n', hn', h⟩
      obtain ⟨i, hi1, h⟩ := List.mem_flatMap.1 h
      obtain ⟨a', ha, hc, he, hx⟩ := (hmem n' i _).1 h
      cases hx
      obtain ⟨lo, hi, h1, h2, h3⟩ := rec1 n (List.mem_range.1 hn')
      simp only [h1, h2, Option.getD_some, List.mem_range'_1] at hi1
      have hal := adj1 n lo hi h1 h2 i hi1.1 (by omega) a ha
      have hpa : part[a]? = some part[a] := List.getElem?_eq_getElem (by omega)
      refine ⟨hc, ⟨_, hpa, fun h0 => he (by rw [hpa, h0])⟩, ?_⟩
      exact ((hg.mem n lo hi h1 h2 a).1 ⟨i, hi1.1, by omega, ha⟩).2
    · rintro ⟨hc, ⟨c, hca, hc0⟩, hS⟩
      have hn : n < ids.length := by
        rw [← hp]
        exact (List.getElem?_eq_some_iff.mp hc).1
      obtain ⟨lo, hi, h1, h2, h3⟩ := rec1 n hn
      refine ⟨n, List.mem_range.2 hn, ?_⟩
      have hne : n ≠ a := by
        rintro rfl
        rw [hc] at hca
        cases hca
        exact hc0 rfl
      obtain ⟨i, hi1, hi2, ha⟩ := (hg.mem n lo hi h1 h2 a).2 ⟨hne, hS⟩
      simp only [h1, h2, Option.getD_some]
      refine List.mem_flatMap.2 ⟨i, List.mem_range'_1.2 ⟨hi1, by omega⟩, (hmem n i _).2 ⟨a, ha, hc, ?_, rfl⟩⟩
      rw [hca]
      simpa using hc0

/-- The graph of two triangles that share an edge. -/
def exGraph : Graph := ⟨[0, 2, 5, 8, 10], [1, 2, 0, 2, 3, 0, 1, 3, 1, 2], List.replicate 10 1⟩

/-- Non-vacuity: the graph is built by `makeGraph_sequential` from the triangles 5 6 7 and 6 7 8; nodes 0 and 1 are in part 0. -/
example : ∃ l, GraphOk [5, 6, 7, 8] (fun _ _ => 1) [[5, 6, 7], [6, 7, 8]] exGraph ∧
    borderEdges exGraph [0, 0, 1, 1] = some l ∧ l = [(0, 2), (1, 2), (1, 3)] := by
  have h : SampleOk 2 [5, 6, 7, 8] [[5, 6, 7], [6, 7, 8]] := ⟨by decide, by decide, by decide⟩
  obtain ⟨g, h1, h2, _⟩ := C68_sequential h (fun _ _ => 1)
  have h3 : makeGraphSeq 2 4 (translation [5, 6, 7, 8]) (fun _ _ => 1) [[5, 6, 7], [6, 7, 8]] = some exGraph := by
    decide +kernel
  have h4 : g = exGraph := Option.some.inj (h1.symm.trans h3)
  exact ⟨_, h4 ▸ h2, by decide +kernel, rfl⟩

/-! ### The position of the split -/

section
variable {D : Nat} {K : Type} [Field K] [LinearOrder K]

theorem sorted_count {d : Fin D} {l r : List (Vec D K)} (h : SortedBy d l r) {m : Nat} {p : Vec D K} (hm : r[m]? = some p) :
    (l.countP fun v => decide (v d < p d)) ≤ m ∧ (l.countP fun v => decide (p d < v d)) ≤ l.length - 1 - m := by
  obtain ⟨hml, he⟩ := List.getElem?_eq_some_iff.mp hm
  have hs := h.2
  have hlen := h.1.length_eq
  rw [← h.1.countP_eq, ← h.1.countP_eq]
  have hsplit : r = r.take m ++ p :: r.drop (m + 1) := by
    rw [← he, ← List.drop_eq_getElem_cons hml, List.take_append_drop]
  have hs' := hs
  rw [hsplit, List.pairwise_append] at hs'
  obtain ⟨h1, h2, h3⟩ := hs'
  rw [List.pairwise_cons] at h2
  constructor
  · rw [hsplit, List.countP_append]
    have e1 : (p :: r.drop (m + 1)).countP (fun v => decide (v d < p d)) = 0 := by
      rw [List.countP_eq_zero]
      intro v hv
      rcases List.mem_cons.1 hv with rfl | hv
      · simp
      · simpa using h2.1 v hv
    rw [e1, Nat.add_zero]
    refine (List.countP_le_length).trans ?_
    rw [List.length_take]
    omega
  · rw [hsplit, List.countP_append, List.countP_cons]
    have e1 : (r.take m).countP (fun v => decide (p d < v d)) = 0 := by
      rw [List.countP_eq_zero]
      intro v hv
      simpa using h3 v hv p List.mem_cons_self
    rw [e1, if_neg (by simp), Nat.zero_add, Nat.add_zero]
    refine (List.countP_le_length).trans ?_
    rw [List.length_drop]
    omega

/-- **C111 (median, partial).** With a non-empty border, the split is at a border point, with at most half of the
border points strictly below and fewer than half strictly above it; the dimension has the smallest `borderLength`, which is
the squared distance of the last two points in this dimension's order.
Missing: the dimension is not the one with the shortest border (`C111_violated`). -/
theorem C111_median_partial {pts : List (Vec D K)} (hne : pts ≠ []) {b : Box D K} {k : Fin D} {x : K}
    (h : Estimates pts b k x) :
    (∃ p ∈ pts, x = p k) ∧ 2 * (pts.countP fun v => decide (v k < x)) ≤ pts.length ∧
    2 * (pts.countP fun v => decide (x < v k)) < pts.length ∧
    ∃ sorted : Fin D → List (Vec D K), (∀ d, SortedBy d pts (sorted d)) ∧
      ∀ d, borderLength (sorted k) ≤ borderLength (sorted d) := by
  unfold Estimates at h
  rw [if_neg hne] at h
  obtain ⟨sorted, hs, hk, p, hp, rfl⟩ := h
  obtain ⟨h1, h2⟩ := sorted_count (hs k) hp
  have hpos : 0 < pts.length := List.length_pos_iff.2 hne
  refine ⟨⟨p, (hs k).1.mem_iff.1 (List.mem_of_getElem? hp), rfl⟩, by omega, by omega, sorted, hs, fun d => ?_⟩
  have hl : (List.ofFn fun d => borderLength (sorted d)) ≠ [] := by
    intro h0
    have := congrArg List.length h0
    rw [List.length_ofFn, List.length_nil] at this
    have := k.isLt
    omega
  obtain ⟨c, hc1, hc2, _⟩ := Vecs.minElement_spec (fun a : K => a) hl
  rw [← hk, List.getElem?_ofFn] at hc1
  have hc : borderLength (sorted k) = c := by simpa using hc1
  rw [hc]
  refine hc2 d.val _ ?_
  rw [List.getElem?_ofFn]
  simp

theorem borderLength_append (l : List (Vec D K)) (a c : Vec D K) :
    borderLength (l ++ [a, c]) = Vecs.lenSq (Vecs.sub a c) := by
  have key : ∀ (l : List (Vec D K)) (z : K), ((l ++ [a, c]).zip (l ++ [a, c]).tail).foldl
      (fun _ p => Vecs.lenSq (Vecs.sub p.1 p.2)) z = Vecs.lenSq (Vecs.sub a c) := by
    intro l
    induction l with
    | nil => intro z; rfl
    | cons v l ih =>
      intro z
      cases l with
      | nil => rfl
      | cons u l => exact ih _
  exact key l 0

/-- The length is that of the last piece of the border only. -/
theorem C111_borderLength (l : List (Vec D K)) (a c : Vec D K) :
    borderLength (l ++ [a, c]) = Vecs.lenSq (Vecs.sub a c) := borderLength_append l a c

end

section
variable {D : Nat} {K : Type} [Field K] [LinearOrder K] [IsStrictOrderedRing K]

theorem borderPoints_mem {edges : List (Nat × Nat)} {pts r : List (Vec D K)} (h : borderPoints edges pts = some r)
    {v : Vec D K} (hv : v ∈ r) : ∃ e ∈ edges, ∃ p q, pts[e.1]? = some p ∧ pts[e.2]? = some q ∧ ∀ d, v d = (p d + q d) / 2 := by
  unfold borderPoints at h
  induction edges generalizing r with
  | nil => simp at h; subst h; simp at hv
  | cons e l ih =>
    rw [List.mapM_cons] at h
    simp only [Option.pure_def, Option.bind_eq_bind, Option.bind_eq_some_iff] at h
    obtain ⟨u, ⟨p, hp, q, hq, hu⟩, s, hs, hr⟩ := h
    cases hr
    rcases List.mem_cons.1 hv with rfl | hv
    · refine ⟨e, List.mem_cons_self, p, q, hp, hq, fun d => ?_⟩
      cases hu
      simp [Vecs.scale, Vecs.add]
      ring
    · obtain ⟨e', he', h'⟩ := ih hs hv
      exact ⟨e', List.mem_cons_of_mem _ he', h'⟩

/-- **C111 (split).** If the sample points are in the box, it is split inside of it; the two boxes cover the
box, and they share only points of the splitting plane. -/
theorem C111_split {edges : List (Nat × Nat)} {sample pts : List (Vec D K)} {b : Box D K}
    (hb : ∀ d, b.low d ≤ b.high d) (hin : ∀ v ∈ sample, ∀ d, b.low d ≤ v d ∧ v d ≤ b.high d)
    (hc : borderPoints edges sample = some pts) {k : Fin D} {x : K} (h : Estimates pts b k x) :
    b.low k ≤ x ∧ x ≤ b.high k ∧
    (∀ v, b.containsPoint v = true ↔ (Build.splitBox b k x).1.containsPoint v = true ∨ (Build.splitBox b k x).2.containsPoint v = true) ∧
    ∀ v, (Build.splitBox b k x).1.containsPoint v = true → (Build.splitBox b k x).2.containsPoint v = true → v k = x := by
  have hx : b.low k ≤ x ∧ x ≤ b.high k := by
    by_cases hne : pts = []
    · unfold Estimates at h
      rw [if_pos hne] at h
      obtain ⟨_, rfl⟩ := h
      have := hb k
      constructor <;> linarith
    · obtain ⟨⟨p, hp, rfl⟩, _⟩ := C111_median_partial hne h
      obtain ⟨e, _, u, v, hu, hv, he⟩ := borderPoints_mem hc hp
      have h1 := hin u (List.mem_of_getElem? hu) k
      have h2 := hin v (List.mem_of_getElem? hv) k
      rw [he k]
      constructor <;> linarith [h1.1, h1.2, h2.1, h2.2]
  have hcont : ∀ (c : Box D K) v, c.containsPoint v = true ↔ ∀ d, c.low d ≤ v d ∧ v d ≤ c.high d := by
    intro c v
    simp [Box.containsPoint, Box.allDims]
  refine ⟨hx.1, hx.2, fun v => ?_, fun v h1 h2 => ?_⟩
  · simp only [hcont, Build.splitBox]
    constructor
    · intro hv
      rcases le_total (v k) x with h | h
      · left
        intro d
        refine ⟨(hv d).1, ?_⟩
        by_cases hd : d = k
        · subst hd; simpa using h
        · rw [Function.update_of_ne hd]; exact (hv d).2
      · right
        intro d
        refine ⟨?_, (hv d).2⟩
        by_cases hd : d = k
        · subst hd; simpa using h
        · rw [Function.update_of_ne hd]; exact (hv d).1
    · rintro (hv | hv) d
      · refine ⟨(hv d).1, ?_⟩
        by_cases hd : d = k
        · subst hd
          have := (hv d).2
          rw [Function.update_self] at this
          exact this.trans hx.2
        · have := (hv d).2
          rwa [Function.update_of_ne hd] at this
      · refine ⟨?_, (hv d).2⟩
        by_cases hd : d = k
        · subst hd
          have := (hv d).1
          rw [Function.update_self] at this
          exact hx.1.trans this
        · have := (hv d).1
          rwa [Function.update_of_ne hd] at this
  · rw [hcont] at h1 h2
    have a := (h1 k).2
    have c := (h2 k).1
    simp only [Build.splitBox, Function.update_self] at a c
    exact le_antisymm a c

end

/-- Non-vacuity: three sample points in a square with two border edges; the box is split at 3/2. -/
example : ∃ (b : Box 2 ℚ) (sample pts : List (Vec 2 ℚ)), (∀ d, b.low d ≤ b.high d) ∧
    (∀ v ∈ sample, ∀ d, b.low d ≤ v d ∧ v d ≤ b.high d) ∧ borderPoints [(0, 1), (0, 2)] sample = some pts ∧ pts ≠ [] ∧
    Estimates pts b 0 (3 / 2) := by
  refine ⟨⟨![0, 0], ![4, 4]⟩, [![0, 0], ![2, 4], ![3, 0]], [![1, 2], ![3 / 2, 0]], by decide +kernel, by decide +kernel,
    by decide +kernel, by decide +kernel, ?_⟩
  unfold Estimates
  rw [if_neg (by decide +kernel)]
  refine ⟨![[![1, 2], ![3 / 2, 0]], [![3 / 2, 0], ![1, 2]]], ?_, ?_, ![3 / 2, 0], ?_, ?_⟩
  · intro d
    fin_cases d <;> exact ⟨by decide +kernel, by decide +kernel⟩
  · decide +kernel
  · rfl
  · rfl

/-! ### The dimension -/

/-- The length of the border as the sum over its pieces. -/
def totalLength {D : Nat} (l : List (Vec D ℚ)) : ℚ := ((l.zip l.tail).map fun p => Vecs.lenSq (Vecs.sub p.1 p.2)).sum

/-- A border of four points. -/
def border : List (Vec 2 ℚ) := [![0, 0], ![1, 2], ![2, 3], ![3, 1]]

/-- The same points by their second coordinate. -/
def border' : List (Vec 2 ℚ) := [![0, 0], ![3, 1], ![1, 2], ![2, 3]]

/-- **C111 is violated.** The length is assigned and not added up, so the box can be split in a dimension with the longer
border: the border has length 12 in the order of dimension 0 and 17 in that of dimension 1, which is taken. -/
theorem C111_violated : ∃ b : Box 2 ℚ, Estimates border b 1 2 ∧ SortedBy 0 border border ∧ SortedBy 1 border border' ∧
    totalLength border < totalLength border' := by
  have h0 : SortedBy 0 border border := ⟨List.Perm.refl _, by decide +kernel⟩
  have h1 : SortedBy 1 border border' := ⟨by decide +kernel, by decide +kernel⟩
  refine ⟨⟨![0, 0], ![3, 3]⟩, ?_, h0, h1, by decide +kernel⟩
  unfold Estimates
  rw [if_neg (by decide +kernel)]
  refine ⟨![border, border'], ?_, ?_, ![1, 2], ?_, ?_⟩
  · intro d
    fin_cases d
    · exact h0
    · exact h1
  · decide +kernel
  · rfl
  · rfl

end Samp
end Verif
