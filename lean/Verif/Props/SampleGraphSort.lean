import Verif.Props.SampleGraphAll

/-!
# C68: sorting for reproducible results, look-ups in the translation table
-/
namespace Verif
namespace Samp

/-- Ordered by node. -/
abbrev Le (x y : Nat × Int) : Prop := x.1 ≤ y.1

theorem mid_get {pre post : List (Nat × Int)} {x : Nat × Int} {n : Nat} (hn : n = pre.length) (f : Nat × Int → α) :
    ((pre ++ x :: post).map f)[n]? = some (f x) := by
  subst hn
  simp

theorem mid_set {pre post : List (Nat × Int)} {x y : Nat × Int} {n : Nat} (hn : n = pre.length) (f : Nat × Int → α) :
    ((pre ++ x :: post).map f).set n (f y) = (pre ++ y :: post).map f := by
  subst hn
  simp

/-- The inner loop splits the sorted entries before the value. -/
theorem holeLoop_spec {pre : List (Nat × Int)} {v : Nat} : ∀ (seg : List (Nat × Int)) (hole : Nat × Int) (post : List (Nat × Int)),
    ∃ s1 s2 h', seg = s1 ++ s2 ∧ (∀ x ∈ s2, v < x.1) ∧ (∀ y, s1.getLast? = some y → y.1 ≤ v) ∧
      holeLoop pre.length v (pre.length + seg.length) ((pre ++ (seg ++ hole :: post)).map Prod.fst) ((pre ++ (seg ++ hole :: post)).map Prod.snd) =
        some (pre.length + s1.length, (pre ++ (s1 ++ h' :: (s2 ++ post))).map Prod.fst, (pre ++ (s1 ++ h' :: (s2 ++ post))).map Prod.snd) := by
  intro seg
  induction seg using List.reverseRecOn with
  | nil =>
    intro hole post
    refine ⟨[], [], hole, rfl, by simp, by simp, ?_⟩
    simp only [List.length_nil, Nat.add_zero, List.nil_append]
    cases hp : pre.length with
    | zero => rfl
    | succ k => rw [holeLoop, if_neg (by omega)]
  | append_singleton seg y ih =>
    intro hole post
    simp only [List.length_append, List.length_cons, List.length_nil, Nat.zero_add, ← Nat.add_assoc]
    rw [holeLoop, if_pos (by omega)]
    have e : pre ++ (seg ++ [y] ++ hole :: post) = (pre ++ seg) ++ y :: hole :: post := by simp
    have e' : pre ++ (seg ++ [y] ++ hole :: post) = (pre ++ seg ++ [y]) ++ hole :: post := by simp
    rw [e, mid_get (by simp), mid_get (by simp), ← e]
    dsimp only
    split
    · next hlt =>
      rw [e', mid_set (by simp [Nat.add_assoc]), mid_set (by simp [Nat.add_assoc])]
      obtain ⟨s1, s2, h', h1, h2, h3, h4⟩ := ih y (y :: post)
      refine ⟨s1, s2 ++ [y], h', by rw [h1, List.append_assoc], ?_, h3, ?_⟩
      · intro x hx
        rcases List.mem_append.mp hx with hx | hx
        · exact h2 x hx
        · rw [List.mem_singleton.mp hx]; exact hlt
      · have e2 : pre ++ seg ++ [y] ++ y :: post = pre ++ (seg ++ y :: y :: post) := by simp
        rw [e2, h4]
        simp
    · next hlt =>
      refine ⟨seg ++ [y], [], hole, by simp, by simp, ?_, by simp [Nat.add_assoc]⟩
      intro z hz
      simp only [List.getLast?_append, List.getLast?_singleton, Option.some_or, Option.some.injEq] at hz
      rw [← hz]
      omega

/-- One round of the middle loop inserts the next entry. -/
theorem sortStep_spec {pre seg post : List (Nat × Int)} {x : Nat × Int} (hs : seg.Pairwise Le) {i : Nat} (hi : i = pre.length + seg.length) :
    ∃ seg' : List (Nat × Int), seg'.Perm (x :: seg) ∧ seg'.Pairwise Le ∧
      sortStep pre.length i ((pre ++ (seg ++ x :: post)).map Prod.fst, (pre ++ (seg ++ x :: post)).map Prod.snd) =
        some ((pre ++ (seg' ++ post)).map Prod.fst, (pre ++ (seg' ++ post)).map Prod.snd) := by
  subst hi
  obtain ⟨s1, s2, h', h1, h2, h3, h4⟩ := holeLoop_spec (pre := pre) (v := x.1) seg x post
  refine ⟨s1 ++ x :: s2, ?_, ?_, ?_⟩
  · rw [h1]
    exact List.perm_middle
  · rw [h1, List.pairwise_append] at hs
    rw [List.pairwise_append]
    have hlast : ∀ y ∈ s1, y.1 ≤ x.1 := by
      intro y hy
      rcases List.eq_nil_or_concat s1 with rfl | ⟨l, z, rfl⟩
      · simp at hy
      · have hz := h3 z (by simp)
        rw [List.concat_eq_append, List.mem_append, List.mem_singleton] at hy
        rcases hy with hy | rfl
        · have := hs.1
          rw [List.concat_eq_append, List.pairwise_append] at this
          exact Nat.le_trans (this.2.2 y hy z (by simp)) hz
        · exact hz
    refine ⟨hs.1, List.pairwise_cons.mpr ⟨fun y hy => (h2 y hy).le, hs.2.1⟩, fun y hy z hz => ?_⟩
    rcases List.mem_cons.mp hz with rfl | hz
    · exact hlast y hy
    · exact hs.2.2 y hy z hz
  · have e : pre ++ (seg ++ x :: post) = (pre ++ seg) ++ x :: post := by simp
    rw [sortStep]
    simp only
    rw [e, mid_get (by simp), mid_get (by simp), ← e]
    dsimp only
    rw [h4, Option.map_some]
    have e2 : pre ++ (s1 ++ h' :: (s2 ++ post)) = (pre ++ s1) ++ h' :: (s2 ++ post) := by simp
    dsimp only
    rw [e2, mid_set (by simp), mid_set (by simp)]
    simp

/-- The middle loop sorts the entries of a node and leaves the others. -/
theorem sortNode_spec {pre post : List (Nat × Int)} (row : List (Nat × Int)) {lo hi : Nat} (hlo : lo = pre.length)
    (hhi : hi = pre.length + row.length) : ∃ row' : List (Nat × Int), row'.Perm row ∧ row'.Pairwise Le ∧
      sortNode lo hi ((pre ++ (row ++ post)).map Prod.fst, (pre ++ (row ++ post)).map Prod.snd) =
        some ((pre ++ (row' ++ post)).map Prod.fst, (pre ++ (row' ++ post)).map Prod.snd) := by
  subst hlo hhi
  rw [sortNode, Nat.add_sub_cancel_left]
  induction row using List.reverseRecOn generalizing post with
  | nil => exact ⟨[], .refl _, List.Pairwise.nil, rfl⟩
  | append_singleton row x ih =>
    obtain ⟨r, r1, r2, r3⟩ := ih (post := x :: post)
    rw [List.length_append, List.length_singleton, List.range'_concat, List.foldl_append]
    have e : row ++ [x] ++ post = row ++ x :: post := by simp
    rw [e, r3]
    obtain ⟨r', q1, q2, q3⟩ := sortStep_spec (pre := pre) (post := post) (x := x) r2 (i := pre.length + 1 * row.length)
      (by rw [r1.length_eq]; omega)
    refine ⟨r', q1.trans ((r1.cons x).trans (List.perm_append_singleton x row).symm), q2, ?_⟩
    simpa using q3

/-- The entries of nodes `a … a + k - 1`. -/
def rowsFrom (R : Nat → List (Nat × Int)) (a k : Nat) : List (Nat × Int) := (List.range' a k).flatMap R

theorem rowsFrom_length (R : Nat → List (Nat × Int)) (k : Nat) :
    (rowsFrom R 0 k).length = ∑ i ∈ Finset.range k, (R i).length := by
  induction k with
  | zero => rfl
  | succ k ih =>
    rw [rowsFrom, List.range'_concat, List.flatMap_append, List.length_append, Finset.sum_range_succ, ← ih]
    simp [rowsFrom]

theorem rowsFrom_succ (R : Nat → List (Nat × Int)) (k : Nat) : rowsFrom R 0 (k + 1) = rowsFrom R 0 k ++ R k := by
  rw [rowsFrom, List.range'_concat, List.flatMap_append]
  simp [rowsFrom]

theorem rowsFrom_split (R : Nat → List (Nat × Int)) (a k : Nat) : rowsFrom R a (k + 1) = R a ++ rowsFrom R (a + 1) k := by
  rw [rowsFrom, List.range'_succ, List.flatMap_cons]
  rfl

theorem rowsFrom_add (R : Nat → List (Nat × Int)) (a k l : Nat) : rowsFrom R a (k + l) = rowsFrom R a k ++ rowsFrom R (a + k) l := by
  rw [rowsFrom, ← List.range'_append_1, List.flatMap_append]
  rfl

/-- Arrays of a graph given by its rows. -/
theorem Rows.arrays {n : Nat} {R : Nat → List (Nat × Int)} {g : Graph} (h : Rows n R g) :
    g.adj = (rowsFrom R 0 n).map Prod.fst ∧ g.wts = (rowsFrom R 0 n).map Prod.snd := by
  have key : ∀ k, k < (rowsFrom R 0 n).length → ∃ x, (rowsFrom R 0 n)[k]? = some x ∧ g.adj[k]? = some x.1 ∧ g.wts[k]? = some x.2 := by
    intro k hk
    have : ∃ i, i < n ∧ ∑ j ∈ Finset.range i, (R j).length ≤ k ∧ k < ∑ j ∈ Finset.range (i + 1), (R j).length := by
      rw [rowsFrom_length] at hk
      have hex : ∃ i, k < ∑ j ∈ Finset.range (i + 1), (R j).length := by
        cases n with
        | zero => simp at hk
        | succ n => exact ⟨n, hk⟩
      have hs := Nat.find_spec hex
      have hm := fun j => Nat.find_min (m := j) hex
      refine ⟨Nat.find hex, ?_, ?_, hs⟩
      · by_contra hc
        cases n with
        | zero => simp at hk
        | succ n => exact hm n (by omega) hk
      · cases hf : Nat.find hex with
        | zero => simp
        | succ m =>
          have := hm m (by omega)
          omega
    obtain ⟨i, hi, h1, h2⟩ := this
    rw [Finset.sum_range_succ] at h2
    have hlen : k - (∑ j ∈ Finset.range i, (R j).length) < (R i).length := by omega
    obtain ⟨a1, a2⟩ := h.row i hi _ _ (List.getElem?_eq_getElem hlen)
    rw [Nat.add_sub_cancel' h1] at a1 a2
    refine ⟨_, ?_, a1, a2⟩
    obtain ⟨d, rfl⟩ : ∃ d, n = i + (1 + d) := ⟨n - i - 1, by omega⟩
    have e : rowsFrom R 0 (i + (1 + d)) = rowsFrom R 0 i ++ (R i ++ rowsFrom R (i + 1) d) := by
      rw [rowsFrom_add, Nat.zero_add, Nat.add_comm 1 d, rowsFrom_split]
    rw [e, List.getElem?_append_right (by rw [rowsFrom_length]; exact h1), rowsFrom_length, List.getElem?_append_left hlen,
      List.getElem?_eq_getElem hlen]
  have hl := rowsFrom_length R n
  have ha := h.alen
  have hw := h.wlen
  constructor
  · refine List.ext_getElem? fun k => ?_
    by_cases hk : k < (rowsFrom R 0 n).length
    · obtain ⟨x, x1, x2, _⟩ := key k hk
      rw [x2, List.getElem?_map, x1, Option.map_some]
    · rw [List.getElem?_eq_none (by omega), List.getElem?_eq_none (by rw [List.length_map]; omega)]
  · refine List.ext_getElem? fun k => ?_
    by_cases hk : k < (rowsFrom R 0 n).length
    · obtain ⟨x, x1, _, x2⟩ := key k hk
      rw [x2, List.getElem?_map, x1, Option.map_some]
    · rw [List.getElem?_eq_none (by omega), List.getElem?_eq_none (by rw [List.length_map]; omega)]

/-- Conversely. -/
theorem Rows.of_arrays {n : Nat} {R : Nat → List (Nat × Int)} {g : Graph} (hlen : g.recs.length = n + 1)
    (hrecs : ∀ i, i ≤ n → g.recs[i]? = some (∑ k ∈ Finset.range i, (R k).length)) (h1 : g.adj = (rowsFrom R 0 n).map Prod.fst)
    (h2 : g.wts = (rowsFrom R 0 n).map Prod.snd) : Rows n R g := by
  refine ⟨hlen, hrecs, by rw [h1, List.length_map, rowsFrom_length], by rw [h1, h2, List.length_map, List.length_map], fun i hi m x hx => ?_⟩
  have hm := (List.getElem?_eq_some_iff.mp hx).1
  obtain ⟨d, rfl⟩ : ∃ d, n = i + (1 + d) := ⟨n - i - 1, by omega⟩
  have e : rowsFrom R 0 (i + (1 + d)) = rowsFrom R 0 i ++ (R i ++ rowsFrom R (i + 1) d) := by
    rw [rowsFrom_add, Nat.zero_add, Nat.add_comm 1 d, rowsFrom_split]
  have : (rowsFrom R 0 (i + (1 + d)))[(∑ k ∈ Finset.range i, (R k).length) + m]? = some x := by
    rw [e, List.getElem?_append_right (by rw [rowsFrom_length]; omega), rowsFrom_length, Nat.add_sub_cancel_left,
      List.getElem?_append_left hm, hx]
  rw [h1, h2, List.getElem?_map, List.getElem?_map, this]
  exact ⟨rfl, rfl⟩

/-- The outer loop sorts the rows. -/
theorem reproducible_spec {n : Nat} {R : Nat → List (Nat × Int)} {g : Graph} (h : Rows n R g) :
    ∃ (R' : Nat → List (Nat × Int)) (g' : Graph), reproducible n g = some g' ∧ Rows n R' g' ∧ (∀ i, (R' i).Perm (R i)) ∧
      ∀ i, i < n → (R' i).Pairwise Le := by
  obtain ⟨ha, hw⟩ := h.arrays
  have main : ∀ k, k ≤ n → ∃ R' : Nat → List (Nat × Int), (∀ i, (R' i).Perm (R i)) ∧ (∀ i, i < k → (R' i).Pairwise Le) ∧
      (List.range k).foldl (fun r k => r.bind (sortAt g.recs k)) (some (g.adj, g.wts)) = some ((rowsFrom R' 0 n).map Prod.fst, (rowsFrom R' 0 n).map Prod.snd) := by
    intro k
    induction k with
    | zero => exact fun _ => ⟨R, fun i => .refl _, by simp, by simp [ha, hw]⟩
    | succ k ih =>
      intro hk
      obtain ⟨R', h1, h2, h3⟩ := ih (by omega)
      obtain ⟨d, hd⟩ : ∃ d, n = k + (1 + d) := ⟨n - k - 1, by omega⟩
      have e : ∀ R'' : Nat → List (Nat × Int), rowsFrom R'' 0 n = rowsFrom R'' 0 k ++ (R'' k ++ rowsFrom R'' (k + 1) d) := by
        intro R''
        rw [hd, rowsFrom_add, Nat.zero_add, Nat.add_comm 1 d, rowsFrom_split]
      have hsum : ∀ j, ∑ i ∈ Finset.range j, (R i).length = (rowsFrom R' 0 j).length := by
        intro j
        rw [rowsFrom_length]
        exact Finset.sum_congr rfl fun i _ => ((h1 i).length_eq).symm
      obtain ⟨row, r1, r2, r3⟩ := sortNode_spec (pre := rowsFrom R' 0 k) (post := rowsFrom R' (k + 1) d) (R' k)
        (lo := ∑ i ∈ Finset.range k, (R i).length) (hi := ∑ i ∈ Finset.range (k + 1), (R i).length) (hsum k)
        (by rw [hsum, rowsFrom_succ, List.length_append])
      have hcongr : ∀ a l, (∀ i, a ≤ i → i < a + l → i ≠ k) → rowsFrom (Function.update R' k row) a l = rowsFrom R' a l := by
        intro a l hne
        rw [rowsFrom, rowsFrom]
        refine List.flatMap_congr fun i hi => ?_
        rw [List.mem_range'_1] at hi
        rw [Function.update_of_ne (hne i hi.1 hi.2)]
      refine ⟨Function.update R' k row, fun i => ?_, fun i hi => ?_, ?_⟩
      · by_cases hik : i = k
        · subst hik; rw [Function.update_self]; exact r1.trans (h1 i)
        · rw [Function.update_of_ne hik]; exact h1 i
      · by_cases hik : i = k
        · subst hik; rw [Function.update_self]; exact r2
        · rw [Function.update_of_ne hik]; exact h2 i (by omega)
      · rw [List.range_succ, List.foldl_append, h3, e (Function.update R' k row), hcongr 0 k (by omega), hcongr (k + 1) d (by omega),
          Function.update_self, e R']
        simp only [List.foldl_cons, List.foldl_nil, Option.bind_some]
        rw [sortAt, h.recs k (by omega), h.recs (k + 1) hk]
        exact r3
  obtain ⟨R', h1, h2, h3⟩ := main n le_rfl
  refine ⟨R', _, by rw [reproducible, h3, Option.map_some], ?_, h1, h2⟩
  refine Rows.of_arrays h.len (fun i hi => ?_) rfl rfl
  show g.recs[i]? = _
  rw [h.recs i hi]
  congr 1
  exact Finset.sum_congr rfl fun j _ => ((h1 j).length_eq).symm

/-- Sorted rows with the same entries are equal. -/
theorem rows_unique {R1 R2 : List (Nat × Int)} (h1 : R1.Pairwise Le) (n1 : (R1.map Prod.fst).Nodup) (h2 : R2.Pairwise Le)
    (n2 : (R2.map Prod.fst).Nodup) (hm : ∀ x, x ∈ R1 ↔ x ∈ R2) : R1 = R2 := by
  have hp : R1.Perm R2 := (List.perm_ext_iff_of_nodup n1.of_map n2.of_map).mpr hm
  refine List.Perm.eq_of_pairwise ?_ h1 h2 hp
  intro a b ha hb hab hba
  exact List.inj_on_of_nodup_map n1 ha ((hm b).mpr hb) (Nat.le_antisymm hab hba)

theorem rows_graph_unique {n : Nat} {R1 R2 : Nat → List (Nat × Int)} {g1 g2 : Graph} (h1 : Rows n R1 g1) (h2 : Rows n R2 g2)
    (h : ∀ i, i < n → R1 i = R2 i) : g1 = g2 := by
  have hr : rowsFrom R1 0 n = rowsFrom R2 0 n := by
    rw [rowsFrom, rowsFrom]
    refine List.flatMap_congr fun i hi => h i ?_
    rw [List.mem_range'_1] at hi
    omega
  have hs : ∀ i, i ≤ n → ∑ k ∈ Finset.range i, (R1 k).length = ∑ k ∈ Finset.range i, (R2 k).length :=
    fun i hi => Finset.sum_congr rfl fun k hk => by rw [h k (by have := Finset.mem_range.mp hk; omega)]
  obtain ⟨a1, b1⟩ := h1.arrays
  obtain ⟨a2, b2⟩ := h2.arrays
  have hrec : g1.recs = g2.recs := by
    refine List.ext_getElem? fun i => ?_
    by_cases hi : i ≤ n
    · rw [h1.recs i hi, h2.recs i hi, hs i hi]
    · rw [List.getElem?_eq_none (by rw [h1.len]; omega), List.getElem?_eq_none (by rw [h2.len]; omega)]
  cases g1
  cases g2
  simp only [Graph.mk.injEq]
  simp only at a1 b1 a2 b2 hrec
  exact ⟨hrec, by rw [a1, a2, hr], by rw [b1, b2, hr]⟩

/-- With a translation table that contains the sample points only, the sorting step returns the graph of the sample
triangulation with sorted entries, whatever the schedule: it is the graph that the sequential version returns. -/
theorem C68_reproducible_partial {D : Nat} {ids : List Nat} {S : List (List Nat)} (h : SampleOk D ids S) (w : Nat → Nat → Int)
    (hn : ids.length ≤ 2 ^ 32) {g : Graph} (hg : MakeGraph D ids.length (translation ids) w S ids.length g) :
    ∃ g', reproducible ids.length g = some g' ∧ GraphOk ids w S g' ∧ g'.Sorted ∧
      makeGraphSeq D ids.length (translation ids) w S = some g' := by
  obtain ⟨R, r1, r2, r3⟩ := makeGraph_rows h w hn le_rfl hg
  obtain ⟨R', g', q1, q2, q3, q4⟩ := reproducible_spec r1
  obtain ⟨Q, f, f1, f2, f3, f4⟩ := makeGraphSeq_rows h w
  have hnd : ∀ i, i < ids.length → ((R' i).map Prod.fst).Nodup := fun i hi => ((q3 i).map Prod.fst).nodup_iff.mpr (r2 i hi)
  have hmem : ∀ i, i < ids.length → ∀ x, x ∈ R' i ↔ (i, x.1, x.2) ∈ S.flatMap (pairs D (translation ids) w) :=
    fun i hi x => by rw [(q3 i).mem_iff, r3 i hi]
  have hfg : f = g' := rows_graph_unique f2 q2 fun i hi => rows_unique ((f3 i hi).imp fun h => le_of_lt h)
    (List.pairwise_map.mpr ((f3 i hi).imp fun h => ne_of_lt h)) (q4 i hi) (hnd i hi) fun x => by rw [f4 i hi, hmem i hi]
  subst hfg
  exact ⟨f, q1, q2.graphOk h hnd hmem, f2.sorted f3, f1⟩

/-! ### The translation table grows -/

/-- A node beyond the records: the sorting step reads `nodeRecords` out of bounds. -/
theorem reproducible_none {size n : Nat} {g : Graph} (hlen : g.recs.length = n + 1) (h : n < size) : reproducible size g = none := by
  obtain ⟨d, rfl⟩ : ∃ d, size = n + 1 + d := ⟨size - n - 1, by omega⟩
  have hnone : ∀ l : List Nat, l.foldl (fun (r : Option (List Nat × List Int)) k => r.bind (sortAt g.recs k)) none = none := by
    intro l
    induction l with
    | nil => rfl
    | cons a l ih => exact ih
  have hstep : ∀ r : Option (List Nat × List Int), r.bind (sortAt g.recs n) = none := by
    intro r
    cases r with
    | none => rfl
    | some x =>
      rw [Option.bind_some, sortAt, List.getElem?_eq_none (show g.recs.length ≤ n + 1 by omega)]
      cases g.recs[n]? <;> rfl
  rw [reproducible, List.range_add, List.range_succ, List.foldl_append, List.foldl_append, List.foldl_cons, List.foldl_nil, hstep, hnone]
  rfl

/-- The keys at the end of the first loop. -/
theorem lookup_inv {T D : Nat} {ids : Finset Nat} {S : Fin T → List (List Nat)} {s : Lookup T}
    (h : Relation.ReflTransGen Lookup.Step (Lookup.init D ids S) s) :
    ids ⊆ s.keys ∧ ∀ t, ∀ p ∈ (S t).flatMap (lookups D), p ∈ s.keys ∨ s.ins t = some p ∨ p ∈ s.todo t := by
  induction h with
  | refl => exact ⟨Finset.Subset.refl _, fun t p hp => Or.inr (Or.inr hp)⟩
  | tail _ hs ih =>
    obtain ⟨i1, i2⟩ := ih
    cases hs with
    | find t i l hi ht hk =>
      refine ⟨i1, fun u p hp => ?_⟩
      rcases i2 u p hp with h | h | h
      · exact Or.inl h
      · exact Or.inr (Or.inl h)
      · by_cases e : u = t
        · subst e
          rw [ht] at h
          rcases List.mem_cons.mp h with rfl | h
          · exact Or.inl hk
          · exact Or.inr (Or.inr (by simpa using h))
        · exact Or.inr (Or.inr (by simpa [Function.update_of_ne e] using h))
    | begin t i l hi ht hk =>
      refine ⟨i1, fun u p hp => ?_⟩
      by_cases e : u = t
      · subst e
        rcases i2 u p hp with h | h | h
        · exact Or.inl h
        · rw [hi] at h; cases h
        · rw [ht] at h
          rcases List.mem_cons.mp h with rfl | h
          · exact Or.inr (Or.inl (by simp))
          · exact Or.inr (Or.inr (by simpa using h))
      · rcases i2 u p hp with h | h | h
        · exact Or.inl h
        · exact Or.inr (Or.inl (by simpa [Function.update_of_ne e] using h))
        · exact Or.inr (Or.inr (by simpa [Function.update_of_ne e] using h))
    | commit t i hi =>
      refine ⟨i1.trans (Finset.subset_insert _ _), fun u p hp => ?_⟩
      rcases i2 u p hp with h | h | h
      · exact Or.inl (Finset.mem_insert_of_mem h)
      · by_cases e : u = t
        · subst e
          rw [hi] at h
          cases h
          exact Or.inl (Finset.mem_insert_self _ _)
        · exact Or.inr (Or.inl (by simpa [Function.update_of_ne e] using h))
      · exact Or.inr (Or.inr h)

/-- The sorting step for reproducible results reads out of bounds as soon as one simplex of the sample triangulation has an
infinite vertex: looking it up has added it to the translation table, whose size is the bound of the loop. -/
theorem C68_reproducible_violated {T D : Nat} {ids : List Nat} {S : Fin T → List (List Nat)} (hnd : ids.Nodup) {t : Fin T} {vs : List Nat}
    (hvs : vs ∈ S t) {p : Nat} (hp : p ∈ vs) (hpi : p ∉ ids) {s : Lookup T}
    (h : Relation.ReflTransGen Lookup.Step (Lookup.init D ids.toFinset S) s) (hf : ∀ t, s.ins t = none ∧ s.todo t = []) :
    ids.length < s.keys.card ∧ ∀ (w : Nat → Nat → Int) (S' : List (List Nat)) (g : Graph), SampleOk D ids S' → ids.length ≤ 2 ^ 32 →
      MakeGraph D ids.length (translation ids) w S' s.keys.card g → reproducible s.keys.card g = none := by
  obtain ⟨h1, h2⟩ := lookup_inv h
  have hpk : p ∈ s.keys := by
    rcases h2 t p (List.mem_flatMap.mpr ⟨vs, hvs, List.mem_flatMap.mpr ⟨p, hp, by simp⟩⟩) with h | h | h
    · exact h
    · rw [(hf t).1] at h; cases h
    · rw [(hf t).2] at h; simp at h
  have hcard : ids.length < s.keys.card := by
    rw [← List.toFinset_card_of_nodup hnd]
    exact Finset.card_lt_card ⟨h1, fun hc => hpi (List.mem_toFinset.mp (hc hpk))⟩
  exact ⟨hcard, fun w S' g hok hn hg => reproducible_none (C68_partial hok w hn hcard.le hg).len hcard⟩

/-- A thread runs up to its first id that is not in the table. -/
theorem lookup_run {T : Nat} {t : Fin T} : ∀ (l : List Nat) (s : Lookup T), s.todo t = l → s.ins t = none → (∃ p ∈ l, p ∉ s.keys) →
    ∃ s', Relation.ReflTransGen Lookup.Step s s' ∧ s'.ins t ≠ none ∧ ∀ u, u ≠ t → s'.ins u = s.ins u ∧ s'.todo u = s.todo u
  | [], _, _, _, h => by simp at h
  | a :: l, s, ht, hi, h => by
    by_cases ha : a ∈ s.keys
    · obtain ⟨s', h1, h2, h3⟩ := lookup_run (t := t) l { s with todo := Function.update s.todo t l } (by simp) hi (by
        obtain ⟨p, hp, hk⟩ := h
        rcases List.mem_cons.mp hp with rfl | hp
        · exact absurd ha hk
        · exact ⟨p, hp, hk⟩)
      refine ⟨s', .head (Lookup.Step.find s t a l hi ht ha) h1, h2, fun u hu => ?_⟩
      obtain ⟨k1, k2⟩ := h3 u hu
      exact ⟨k1, by rw [k2]; simp [Function.update_of_ne hu]⟩
    · refine ⟨_, .single (Lookup.Step.begin s t a l hi ht ha), by simp, fun u hu => ?_⟩
      simp [Function.update_of_ne hu]

/-- `makeGraph` has a data race whenever a thread visits a simplex with an infinite vertex and another thread visits any
simplex: the look-up `idTranslation[id]` inserts into the hash map shared by the threads. -/
theorem C68_race_violated {T D : Nat} {ids : Finset Nat} {S : Fin T → List (List Nat)} {t u : Fin T} (htu : t ≠ u) {vs : List Nat}
    (hvs : vs ∈ S t) {p : Nat} (hp : p ∈ vs) (hpi : p ∉ ids) {vs' : List Nat} (hu : vs' ∈ S u) (hne : vs' ≠ []) :
    ∃ s, Relation.ReflTransGen Lookup.Step (Lookup.init D ids S) s ∧ s.race := by
  obtain ⟨s, h1, h2, h3⟩ := lookup_run (t := t) _ (Lookup.init D ids S) rfl rfl
    ⟨p, List.mem_flatMap.mpr ⟨vs, hvs, List.mem_flatMap.mpr ⟨p, hp, by simp⟩⟩, hpi⟩
  refine ⟨s, h1, t, u, htu, h2, Or.inr ?_⟩
  rw [(h3 u (Ne.symm htu)).2]
  obtain ⟨q, l, rfl⟩ := List.exists_cons_of_ne_nil hne
  have : q ∈ (S u).flatMap (lookups D) := List.mem_flatMap.mpr ⟨_, hu, List.mem_flatMap.mpr ⟨q, by simp, by simp⟩⟩
  exact List.ne_nil_of_mem this

/-- Without infinite vertices there is no race: no look-up inserts. -/
theorem C68_race_partial {T D : Nat} {ids : Finset Nat} {S : Fin T → List (List Nat)} (hall : ∀ t, ∀ vs ∈ S t, ∀ p ∈ vs, p ∈ ids)
    {s : Lookup T} (h : Relation.ReflTransGen Lookup.Step (Lookup.init D ids S) s) : ¬ s.race ∧ s.keys = ids := by
  have inv : s.keys = ids ∧ (∀ t, s.ins t = none) ∧ ∀ t, ∀ p ∈ s.todo t, p ∈ ids := by
    induction h with
    | refl =>
      refine ⟨rfl, fun _ => rfl, fun t p hp => ?_⟩
      obtain ⟨vs, hvs, hp⟩ := List.mem_flatMap.mp hp
      obtain ⟨q, hq, hp⟩ := List.mem_flatMap.mp hp
      rcases List.mem_cons.mp hp with rfl | hp
      · exact hall t vs hvs p hq
      · split at hp
        · exact hall t vs hvs p hp
        · simp at hp
    | tail _ hs ih =>
      obtain ⟨i1, i2, i3⟩ := ih
      cases hs with
      | find t i l hi ht hk =>
        refine ⟨i1, i2, fun u p hp => ?_⟩
        by_cases e : u = t
        · subst e
          exact i3 u p (by rw [ht]; exact List.mem_cons_of_mem _ (by simpa using hp))
        · exact i3 u p (by simpa [Function.update_of_ne e] using hp)
      | begin t i l hi ht hk => exact absurd (by rw [i1]; exact i3 t i (by rw [ht]; simp)) hk
      | commit t i hi => rw [i2 t] at hi; cases hi
  exact ⟨fun ⟨t, _, _, ht, _⟩ => ht (inv.2.1 t), inv.1⟩

/-! ### Example: two triangles with a common edge and their outer neighbours -/

/-- Sample points 3, 8, 4, 9; the vertex `inf` is infinite. -/
def exInf : Nat := 2 ^ 64 - 4

def exS : List (List Nat) := [[3, 8, 4], [8, 4, 9], [3, 8, exInf]]

theorem exOk : SampleOk 2 [3, 8, 4, 9] exS := by
  refine ⟨by decide, ?_, ?_⟩
  · intro p hp
    fin_cases hp <;> decide
  · intro vs hvs p hp
    fin_cases hvs <;> fin_cases hp <;> decide

example : ∃ g, MakeGraph 2 4 (translation [3, 8, 4, 9]) (fun p q => (p + q : Int)) exS 5 g ∧ g.recs = [0, 2, 5, 8, 10] := by
  obtain ⟨g, hg⟩ := C68_returns exOk (fun p q => (p + q : Int)) (by decide) (size := 5) (by decide) (by decide)
  refine ⟨g, hg, ?_⟩
  obtain ⟨R, h1, h2, h3⟩ := makeGraph_rows exOk (fun p q => (p + q : Int)) (by decide) (by decide) hg
  obtain ⟨Q, f, f1, f2, f3, f4⟩ := makeGraphSeq_rows exOk (fun p q => (p + q : Int))
  have hl : ∀ i, i < 4 → (R i).length = (Q i).length := fun i hi =>
    ((List.perm_ext_iff_of_nodup (h2 i hi).of_map (List.Nodup.of_map _ (List.pairwise_map.mpr ((f3 i hi).imp fun h => ne_of_lt h)))).mpr
      fun x => by rw [h3 i hi, f4 i hi]).length_eq
  have hf : f.recs = [0, 2, 5, 8, 10] := by
    have : makeGraphSeq 2 4 (translation [3, 8, 4, 9]) (fun p q => (p + q : Int)) exS =
        some ⟨[0, 2, 5, 8, 10], [1, 2, 0, 2, 3, 0, 1, 3, 1, 2], [11, 7, 11, 12, 17, 7, 12, 13, 17, 13]⟩ := by decide
    rw [show [3, 8, 4, 9].length = 4 from rfl, this] at f1
    cases f1
    rfl
  rw [← hf]
  refine List.ext_getElem? fun i => ?_
  by_cases hi : i ≤ 4
  · rw [h1.recs i hi, f2.recs i hi]
    congr 1
    exact Finset.sum_congr rfl fun k hk => hl k (by have := Finset.mem_range.mp hk; omega)
  · rw [List.getElem?_eq_none (by rw [h1.len]; simp; omega), List.getElem?_eq_none (by rw [f2.len]; simp; omega)]

/-- The race occurs in the example. -/
example : ∃ s, Relation.ReflTransGen Lookup.Step (Lookup.init 2 {3, 8, 4, 9} fun t : Fin 2 => if t = 0 then [[3, 8, exInf]] else [[3, 8, 4]]) s ∧
    s.race :=
  C68_race_violated (t := 0) (u := 1) (by decide) (vs := [3, 8, exInf]) (by simp) (p := exInf) (by simp) (by decide)
    (vs' := [3, 8, 4]) (by simp) (by simp)

end Samp
end Verif
