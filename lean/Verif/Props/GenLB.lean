import Verif.Props.GenCenter

/-!
# C70, C84, C86: the generators of the load balancing experiments
-/
namespace Verif
namespace Gen
open Vecs
variable {D : Nat} {K : Type} [Field K] [LinearOrder K] [IsStrictOrderedRing K] [FloorRing K]

omit [IsStrictOrderedRing K] [FloorRing K] in
/-- A loop over the points `0, …, n - 1` leaves the point `n` uninitialised. -/
theorem hole_of_range {mk : Nat → Nat → Res (Option (Vec D K) × Nat)} {n pos : Nat} {s : Pts D K × Nat} (hn : 1 ≤ n)
    (h : fill mk (List.range n) (init n, pos) = .done s) : s.1.length = n + 1 ∧ Hole n s.1 := by
  obtain ⟨h1, _, h3, _⟩ := fill_spec _ (fun _ _ => True) _ _ _ (fun _ _ _ _ _ => trivial) h
  refine ⟨by rw [h1, length_init], n, hn, le_refl _, ?_⟩
  rw [h3 n (by simp)]
  exact init_get hn (le_refl _)

omit [IsStrictOrderedRing K] [FloorRing K] in
theorem fill_ub {mk : Nat → Nat → Res (Option (Vec D K) × Nat)} {i : Nat} (hmk : ∀ pos x, mk i pos ≠ .done x) :
    ∀ (l : List Nat) (s s' : Pts D K × Nat), i ∈ l → fill mk l s ≠ .done s' := by
  intro l
  induction l with
  | nil => intro s s' h; simp at h
  | cons j l ih =>
    intro s s' hi h
    simp only [fill] at h
    obtain ⟨x, hx, h⟩ := bind_done_iff.mp h
    obtain ⟨pts, _, h⟩ := bind_done_iff.mp h
    rcases List.mem_cons.mp hi with rfl | hi
    · exact hmk _ _ hx
    · exact ih _ _ hi h

/-! ### Unbound bubbles -/

/-- **C70 (unbound bubbles) is violated.** One of the points is never initialised, whatever the spatial sort does. -/
theorem C70_unbound_violated (fl : K → K) (m : Nat) (rad : K) (b : Box D K) (u v : Nat → K) (n pos : Nat) (hn : 1 ≤ n)
    (pts : Pts D K) (h : Generate (unbound fl m rad b u v n pos) pts) : Hole n pts ∧ ¬ Good b n pts := by
  obtain ⟨s, hs⟩ := h.done
  rw [hs] at h
  obtain ⟨h1, h2⟩ := hole_of_range hn hs
  have := generate_hole h h1 h2
  exact ⟨this, not_good_of_hole this⟩

omit [FloorRing K] in
theorem randomCenters_inBox (b : Box D K) (hb : ∀ d, b.low d ≤ b.high d) (u : Nat → K) (hu : ∀ k, 0 ≤ u k ∧ u k ≤ 1) (m pos : Nat) :
    ∀ c ∈ randomCenters b u m pos, InBox b c := by
  intro c hc
  obtain ⟨k, _, rfl⟩ := List.mem_map.mp hc
  exact fun d => between (hb d) (hu _).1 (hu _).2

/-- **C70 (unbound bubbles).** If all points belong to a bubble and the bubbles fit into the box, the generator returns and
fills the points `0, …, n - 1` inside the bounds. -/
theorem C70_unbound_partial (fl : K → K) (m : Nat) (rad : K) (b : Box D K) (u v : Nat → K) (n pos : Nat)
    (hidx : ∀ i < n, centerIndex fl m n i < m) (hb : ∀ d, 2 * rad ≤ b.high d - b.low d)
    (hu : ∀ k, 0 ≤ u k ∧ u k ≤ 1) (hv : ∀ k, -rad ≤ v k ∧ v k ≤ rad) :
    ∃ s, unbound fl m rad b u v n pos = .done s ∧ s.1.length = n + 1 ∧
      ∀ i < n, ∃ p : Vec D K, s.1[i]? = some (some p) ∧ InBox b p := by
  have hc : ∀ i < n, ∃ c, (randomCenters ⟨fun d => b.low d + rad, fun d => b.high d - rad⟩ u m pos)[centerIndex fl m n i]? = some c ∧
      InBox ⟨fun d => b.low d + rad, fun d => b.high d - rad⟩ c := by
    intro i hi
    have hlt : centerIndex fl m n i <
        (randomCenters (⟨fun d => b.low d + rad, fun d => b.high d - rad⟩ : Box D K) u m pos).length := by
      simp only [randomCenters, List.length_map, List.length_range]
      exact hidx i hi
    exact ⟨_, List.getElem?_eq_getElem hlt, randomCenters_inBox _ (fun d => by have := hb d; simp only; linarith) u hu m pos _
      (List.getElem_mem hlt)⟩
  obtain ⟨s, hs⟩ := fill_done (fun i pos' =>
    match (randomCenters (⟨fun d => b.low d + rad, fun d => b.high d - rad⟩ : Box D K) u m pos)[centerIndex fl m n i]? with
    | none => .ub
    | some c => .done (some (add c (draw v pos')), pos' + D)) (List.range n) (init n, pos + m * D) (by
      intro i hi
      rw [length_init]
      have := List.mem_range.mp hi
      omega) (by
      intro i hi pos'
      obtain ⟨c, hc, _⟩ := hc i (List.mem_range.mp hi)
      exact ⟨(some (add c (draw v pos')), pos' + D), by rw [hc]⟩)
  refine ⟨s, hs, ?_⟩
  obtain ⟨h1, _, _, h4⟩ := fill_spec _ (fun _ o => ∃ p, o = some p ∧ InBox b p) _ _ _ (by
    intro i hi pos' x hx
    obtain ⟨c, hc, hin⟩ := hc i (List.mem_range.mp hi)
    rw [hc] at hx
    cases hx
    refine ⟨_, rfl, fun d => ?_⟩
    have h1 := hin d
    have h2 := hv (pos' + d)
    simp only [add, draw] at h1 ⊢
    constructor <;> linarith [h1.1, h1.2, h2.1, h2.2]) hs
  refine ⟨by rw [h1, length_init], fun i hi => ?_⟩
  obtain ⟨o, ho, p, rfl, hp⟩ := h4 i (List.mem_range.mpr hi)
  exact ⟨p, ho, hp⟩

/-- **C70 (unbound bubbles, bounds) is violated.** The assertion `extent >= radius` is not enough: with a box of the size of the
radius a point is out of the bounds. -/
theorem C70_unbound_bounds_violated :
    ∃ (b : Box 1 ℚ) (rad : ℚ) (u v : Nat → ℚ) (s : Pts 1 ℚ × Nat), (∀ d, rad ≤ b.high d - b.low d) ∧
      (∀ k, 0 ≤ u k ∧ u k ≤ 1) ∧ (∀ k, -rad ≤ v k ∧ v k ≤ rad) ∧ unbound fl24 1 rad b u v 2 0 = .done s ∧
      ∃ p, s.1[1]? = some (some p) ∧ ¬ InBox b p := by
  have hidx : ∀ i < 2, centerIndex (fl24 : ℚ → ℚ) 1 2 i = 0 := by
    intro i hi
    have := C84_single_partial (K := ℚ) 1 2 i (by norm_num) (by norm_num) (by norm_num) hi
    omega
  refine ⟨⟨fun _ => 0, fun _ => 1⟩, 1, fun _ => 0, fun _ => 1, ([some fun _ => 2, some fun _ => 2, none], 3), ?_, ?_, ?_, ?_, ?_⟩
  · intro d; norm_num
  · intro k; norm_num
  · intro k; norm_num
  · have hadd : (add (fun _ => 1) fun _ => 1 : Vec 1 ℚ) = fun _ => 2 := by funext d; simp only [add]; norm_num
    have hdraw : ∀ k, (draw (fun _ => 1) k : Vec 1 ℚ) = fun _ => 1 := fun k => rfl
    simp [unbound, List.range_succ, fill, hidx, randomCenters, put, init, hdraw, hadd]
  · refine ⟨fun _ => 2, rfl, fun h => ?_⟩
    have := (h 0).2
    norm_num at this

/-- The generator of unbound bubbles does not run forever. -/
theorem unbound_ub (fl : K → K) (m : Nat) (rad : K) (b : Box D K) (u v : Nat → K) (n pos : Nat)
    (h : ∀ s, unbound fl m rad b u v n pos ≠ .done s) : unbound fl m rad b u v n pos = .ub := by
  have key : ∀ (mk : Nat → Nat → Res (Option (Vec D K) × Nat)), (∀ i pos, mk i pos ≠ .timeout) →
      ∀ l s, fill mk l s ≠ .timeout := by
    intro mk hmk l
    induction l with
    | nil => intro s h; simp [fill] at h
    | cons i l ih =>
      intro s h
      simp only [fill] at h
      cases hx : mk i s.2 with
      | done x =>
        rw [hx, Res.bind_done] at h
        unfold put at h
        split_ifs at h
        · exact ih _ h
        · simp at h
      | ub => rw [hx] at h; simp at h
      | timeout => exact hmk _ _ hx
  cases hr : unbound fl m rad b u v n pos with
  | done s => exact absurd hr (h s)
  | ub => rfl
  | timeout =>
    refine absurd hr (key _ ?_ _ _)
    intro i pos' hm
    split at hm <;> simp at hm

/-- **C84 (consequence).** With `2^24 + 1` points the generator of unbound bubbles reads behind the end of the centres. -/
theorem C84_unbound_violated (m : Nat) (hm : m ≤ 2 ^ 24) (rad : K) (b : Box D K) (u v : Nat → K) (pos : Nat) :
    unbound fl24 m rad b u v (2 ^ 24 + 1) pos = .ub := by
  refine unbound_ub _ _ _ _ _ _ _ _ fun s => ?_
  refine fill_ub (i := 2 ^ 24) ?_ _ _ _ (List.mem_range.mpr (Nat.lt_succ_self _))
  intro pos' x hx
  have hnone : (randomCenters (⟨fun d => b.low d + rad, fun d => b.high d - rad⟩ : Box D K) u m pos)[
      centerIndex (fl24 : K → K) m (2 ^ 24 + 1) (2 ^ 24)]? = none := by
    rw [C84_violated m hm, List.getElem?_eq_none]
    simp [randomCenters]
  rw [hnone] at hx
  simp at hx

/-! ### Malicious bubbles -/

/-- **C70 (malicious bubbles) is violated.** One of the points is never initialised, whatever the spatial sort does. -/
theorem C70_malicious_violated (fl sqrt : K → K) (k m fuel : Nat) (b : Box D K) (r : Nat → K) (n pos : Nat) (hn : 1 ≤ n)
    (pts : Pts D K) (h : Generate (malicious fl sqrt k m fuel b r n pos) pts) : Hole n pts ∧ ¬ Good b n pts := by
  obtain ⟨s, hs⟩ := h.done
  rw [hs] at h
  obtain ⟨h1, h2⟩ := hole_of_range hn hs
  have := generate_hole h h1 h2
  exact ⟨this, not_good_of_hole this⟩

omit [IsStrictOrderedRing K] [FloorRing K] in
theorem bubblePoint_spec (rad : K → K) (fuel : Nat) (b : Box D K) (cs : List (Vec D K)) (r : Nat → K) (c pos : Nat)
    (x : Option (Vec D K) × Nat) (h : bubblePoint rad fuel b cs r c pos = .done x) : ∃ p, x.1 = some p ∧ InBox b p := by
  unfold bubblePoint at h
  split at h
  · simp at h
  · split at h
    · simp at h
    · exact reject_spec _ _ _ _ _ _ h

/-- **C70 (malicious bubbles).** If the generator returns, it has filled the points `0, …, n - 1` inside the bounds. -/
theorem C70_malicious_partial (fl sqrt : K → K) (k m fuel : Nat) (b : Box D K) (r : Nat → K) (n pos : Nat)
    (s : Pts D K × Nat) (h : malicious fl sqrt k m fuel b r n pos = .done s) :
    s.1.length = n + 1 ∧ ∀ i < n, ∃ p : Vec D K, s.1[i]? = some (some p) ∧ InBox b p := by
  obtain ⟨h1, _, _, h4⟩ := fill_spec _ (fun _ o => ∃ p, o = some p ∧ InBox b p) _ _ _ (by
    intro i hi pos' x hx
    exact bubblePoint_spec _ _ _ _ _ _ _ _ hx) h
  refine ⟨by rw [h1, length_init], fun i hi => ?_⟩
  obtain ⟨o, ho, p, rfl, hp⟩ := h4 i (List.mem_range.mpr hi)
  exact ⟨p, ho, hp⟩

/-- **C84 (consequence).** With `2^24 + 1` points the generator of malicious bubbles reads behind the end of the centres. -/
theorem C84_malicious_violated (sqrt : K → K) (k m fuel : Nat) (hm : m ≤ 2 ^ 24) (b : Box D K) (r : Nat → K) (pos : Nat)
    (s : Pts D K × Nat) : malicious fl24 sqrt k m fuel b r (2 ^ 24 + 1) pos ≠ .done s := by
  refine fill_ub (i := 2 ^ 24) ?_ _ _ _ (List.mem_range.mpr (Nat.lt_succ_self _))
  intro pos' x hx
  have hnone : (gridCenters b k m)[centerIndex (fl24 : K → K) m (2 ^ 24 + 1) (2 ^ 24)]? = none := by
    rw [C84_violated m hm, List.getElem?_eq_none]
    simp [gridCenters]
  rw [bubblePoint, hnone] at hx
  simp at hx

/-! ### The radius of the bubbles -/

omit [FloorRing K] in
theorem lenSq_nonneg (v : Vec D K) : 0 ≤ lenSq v := by
  rw [lenSq_eq]
  exact Finset.sum_nonneg fun d _ => mul_self_nonneg _

omit [FloorRing K] in
theorem lenSq_pos (v : Vec D K) (h : ∃ d, v d ≠ 0) : 0 < lenSq v := by
  obtain ⟨d, hd⟩ := h
  rw [lenSq_eq]
  exact lt_of_lt_of_le (mul_self_pos.mpr hd)
    (Finset.single_le_sum (f := fun d => v d * v d) (fun d _ => mul_self_nonneg (v d)) (Finset.mem_univ d))

omit [FloorRing K] in
/-- A point on the boundary has distance zero to it. -/
theorem boundary_zero (b : Box D K) (hb : ∀ d, b.low d ≤ b.high d) (c : Vec D K) (hc : InBox b c)
    (he : ∃ d, c d = b.low d ∨ c d = b.high d) : lenSq (Box.vecToBoxBoundary c b) = 0 := by
  have hD : 0 < D := by obtain ⟨d, _⟩ := he; exact lt_of_le_of_lt (Nat.zero_le _) d.isLt
  apply le_antisymm _ (lenSq_nonneg _)
  exact (Box.C66_boundary hD c b hb).2 ⟨c, ⟨hc, he⟩, by simp⟩

omit [FloorRing K] in
/-- The squared radius of a bubble at the boundary is zero. -/
theorem sqRadius_boundary (b : Box D K) (hb : ∀ d, b.low d ≤ b.high d) (cs : List (Vec D K)) (hcs : 2 ≤ cs.length) (c : Vec D K)
    (hc : InBox b c) (he : ∃ d, c d = b.low d ∨ c d = b.high d) : sqRadius b cs c = some 0 := by
  have hl : 1 < ((cs.map fun o => lenSq (Vecs.sub o c)).insertionSort (· ≤ ·)).length := by
    rw [List.length_insertionSort, List.length_map]; omega
  simp only [sqRadius, List.getElem?_eq_getElem hl, Option.map_some, boundary_zero b hb c hc he]
  congr 1
  apply min_eq_right
  have hmem := List.getElem_mem hl
  rw [List.mem_insertionSort] at hmem
  obtain ⟨o, _, ho⟩ := List.mem_map.mp hmem
  rw [← ho]
  exact lenSq_nonneg _

omit [FloorRing K] in
theorem reject_const (b : Box D K) (f : Vec D K → Vec D K) (r : Nat → K) (c : Vec D K) (hf : ∀ v, f v = c) :
    ∀ fuel pos x, reject b f r fuel pos = .done x → x.1 = some c := by
  intro fuel
  induction fuel with
  | zero => intro pos x h; simp [reject] at h
  | succ fuel ih =>
    intro pos x h
    simp only [reject] at h
    split_ifs at h
    · cases h; rw [hf]
    · exact ih _ _ h

omit [FloorRing K] in
theorem gridCenters_inBox (b : Box D K) (hb : ∀ d, b.low d ≤ b.high d) (k m : Nat) (hk : 1 ≤ k) :
    ∀ c ∈ gridCenters b k m, InBox b c := by
  intro c hc
  obtain ⟨i, _, rfl⟩ := List.mem_map.mp hc
  intro d
  have h1 : ((i / k ^ d.val % k : Nat) : K) ≤ k := by exact_mod_cast (Nat.mod_lt _ (by omega)).le
  have hk0 : (0 : K) < k := by exact_mod_cast hk
  have h2 : (b.high d - b.low d) / (k : K) * ((i / k ^ d.val % k : Nat) : K) =
      (b.high d - b.low d) * (((i / k ^ d.val % k : Nat) : K) / k) := by ring
  dsimp only
  rw [h2]
  exact between (hb d) (by positivity) (by rw [div_le_one hk0]; exact h1)

/-- **C86 is violated.** The malicious bubbles with grid number 0 in some dimension have radius 0, and all their points are
the centre. -/
theorem C86_violated (fl sqrt : K → K) (hsq : sqrt 0 = 0) (k m fuel : Nat) (hk : 1 ≤ k) (hm : 2 ≤ m) (b : Box D K)
    (hb : ∀ d, b.low d ≤ b.high d) (r : Nat → K) (n pos : Nat) (s : Pts D K × Nat)
    (h : malicious fl sqrt k m fuel b r n pos = .done s) (i : Nat) (hi : i < n)
    (hz : ∃ d : Fin D, centerIndex fl m n i / k ^ d.val % k = 0) :
    ∃ c, (gridCenters b k m)[centerIndex fl m n i]? = some c ∧ sqRadius b (gridCenters b k m) c = some 0 ∧
      s.1[i]? = some (some c) := by
  obtain ⟨_, _, _, h4⟩ := fill_spec _ (fun i o => ∃ c, (gridCenters b k m)[centerIndex fl m n i]? = some c ∧
      ∀ q, sqRadius b (gridCenters b k m) c = some q → q = 0 → o = some c) _ _ _ (by
    intro i hi pos' x hx
    unfold bubblePoint at hx
    split at hx
    · simp at hx
    · next c hc =>
      refine ⟨c, hc, fun q hq hq0 => ?_⟩
      rw [hq] at hx
      exact reject_const _ _ _ c (by intro v; funext d; simp [hq0, hsq, add, scale]) _ _ _ hx) h
  obtain ⟨o, ho, c, hc, hq⟩ := h4 i (List.mem_range.mpr hi)
  have hmem := List.mem_of_getElem? hc
  have hlen : (gridCenters b k m).length = m := by simp [gridCenters]
  have hr : sqRadius b (gridCenters b k m) c = some 0 := by
    apply sqRadius_boundary b hb _ (by rw [hlen]; exact hm) c (gridCenters_inBox b hb k m hk c hmem)
    obtain ⟨d, hd⟩ := hz
    refine ⟨d, .inl ?_⟩
    have hlt : centerIndex fl m n i < m := by
      have := (List.getElem?_eq_some_iff.mp hc).1
      rw [hlen] at this; exact this
    have : c = fun d => b.low d + (b.high d - b.low d) / (k : K) * ((centerIndex fl m n i / k ^ d.val % k : Nat) : K) := by
      simp only [gridCenters, List.getElem?_map, List.getElem?_range hlt, Option.map_some, Option.some.injEq] at hc
      exact hc.symm
    rw [this]
    simp [hd]
  exact ⟨c, hc, hr, by rw [ho, hq 0 hr rfl]⟩

omit [FloorRing K] in
/-- **C86.** If the centres are different and not on the boundary of the box, every bubble has a positive radius. -/
theorem C86_partial (hD : 0 < D) (b : Box D K) (hb : ∀ d, b.low d ≤ b.high d) (cs : List (Vec D K)) (hcs : 2 ≤ cs.length)
    (hnd : cs.Nodup) (c : Vec D K) (hc : c ∈ cs) (hin : ∀ d, b.low d < c d ∧ c d < b.high d) :
    ∃ q, sqRadius b cs c = some q ∧ 0 < q := by
  have hl : 1 < ((cs.map fun o => lenSq (Vecs.sub o c)).insertionSort (· ≤ ·)).length := by
    rw [List.length_insertionSort, List.length_map]; omega
  refine ⟨_, by simp only [sqRadius, List.getElem?_eq_getElem hl, Option.map_some]; rfl, lt_min ?_ ?_⟩
  · -- the second smallest distance is positive: only the centre itself has distance 0
    by_contra hcon
    have hsorted := List.pairwise_insertionSort (· ≤ ·) (cs.map fun o => lenSq (Vecs.sub o c))
    have hperm := List.perm_insertionSort (· ≤ ·) (cs.map fun o => lenSq (Vecs.sub o c))
    generalize hL : (cs.map fun o => lenSq (Vecs.sub o c)).insertionSort (· ≤ ·) = L at *
    obtain ⟨x, y, t, rfl⟩ : ∃ x y t, L = x :: y :: t := by
      rcases L with _ | ⟨x, _ | ⟨y, t⟩⟩
      · simp at hl
      · simp at hl
      · exact ⟨x, y, t, rfl⟩
    have hnn : ∀ z ∈ x :: y :: t, 0 ≤ z := by
      intro z hz
      obtain ⟨o, _, rfl⟩ := List.mem_map.mp (hperm.mem_iff.mp hz)
      exact lenSq_nonneg _
    simp only [List.getElem_cons_succ, List.getElem_cons_zero, not_lt] at hcon
    have hy : y = 0 := le_antisymm hcon (hnn y (by simp))
    have hx : x = 0 := by
      refine le_antisymm ?_ (hnn x (by simp))
      rw [← hy]
      exact (List.pairwise_cons.mp hsorted).1 y (by simp)
    have hcount : 2 ≤ (cs.map fun o => lenSq (Vecs.sub o c)).count 0 := by
      rw [← hperm.count_eq]
      simp [hx, hy]
    have hone : (cs.map fun o => lenSq (Vecs.sub o c)).count 0 ≤ cs.count c := by
      rw [List.count_eq_countP, List.countP_map, List.count_eq_countP]
      apply List.countP_mono_left
      intro o _ ho
      simp only [Function.comp_apply, beq_iff_eq] at ho ⊢
      by_contra hne
      have : ∃ d, Vecs.sub o c d ≠ 0 := by
        by_contra hall
        push Not at hall
        apply hne
        funext d
        have := hall d
        rw [Vecs.sub_apply] at this
        linarith
      exact absurd ho (lenSq_pos _ this).ne'
    have := List.nodup_iff_count_le_one.mp hnd c
    omega
  · obtain ⟨⟨p, ⟨hp, he⟩, hx⟩, _⟩ := Box.C66_boundary hD c b hb
    rw [hx]
    obtain ⟨d, hd⟩ := he
    have hne : c d - p d ≠ 0 := by
      obtain ⟨h1, h2⟩ := hin d
      rcases hd with hd | hd
      · rw [hd]; exact (sub_pos.mpr h1).ne'
      · rw [hd]; exact (sub_neg.mpr h2).ne
    exact lt_of_lt_of_le (by positivity : 0 < (c d - p d) ^ 2)
      (Finset.single_le_sum (f := fun d => (c d - p d) ^ 2) (fun d _ => sq_nonneg _) (Finset.mem_univ d))

/-! ### Patch bubbles -/

theorem toSize_le {x : K} {q : Nat} (hx : x ≤ q) {pp : Nat} (h : toSize x = some pp) : pp ≤ q := by
  unfold toSize at h
  split_ifs at h
  cases h
  have : ⌊x⌋ ≤ (q : Int) := by
    have := Int.floor_mono hx
    simpa using this
  omega

omit [IsStrictOrderedRing K] in
theorem patchLoop_spec (m : Nat) (w : Nat → K) (mk : Nat → Nat → Res (Option (Vec D K) × Nat)) (P : Option (Vec D K) → Prop)
    (hmk : ∀ c pos x, mk c pos = .done x → P x.1)
    (hw : ∀ c rem pos pp p', c + 1 < m → patchCount m w c rem pos = some (pp, p') → pp ≤ rem) :
    ∀ (k c rem idx : Nat) (s s' : Pts D K × Nat), c + k = m → 1 ≤ k → rem < 2 ^ 64 →
      patchLoop m w mk (List.range' c k) rem idx s = .done s' →
      s'.1.length = s.1.length ∧ (∀ j : Nat, j < idx → s'.1[j]? = s.1[j]?) ∧
        ∀ j : Nat, idx ≤ j → j < idx + rem → ∃ o, s'.1[j]? = some o ∧ P o := by
  intro k
  induction k with
  | zero => intro c rem idx s s' _ h; omega
  | succ k ih =>
    intro c rem idx s s' hck _ hrem h
    rw [List.range'_succ, patchLoop] at h
    split at h
    · simp at h
    · next pp pos hpp =>
      obtain ⟨t, ht, h⟩ := bind_done_iff.mp h
      obtain ⟨f1, _, f3, f4⟩ := fill_spec _ (fun _ o => P o) _ _ _ (fun _ _ pos x hx => hmk c pos x hx) ht
      rcases Nat.eq_zero_or_pos k with hk | hk
      · -- the last bubble gets all remaining points
        subst hk
        have hpp' : pp = rem := by
          simp only [patchCount] at hpp
          rw [if_neg (by omega)] at hpp
          cases hpp; rfl
        subst hpp'
        simp only [List.range'_zero, patchLoop] at h
        cases h
        refine ⟨f1, fun j hj => f3 j (by rw [List.mem_range'_1]; omega), fun j h1 h2 => f4 j (List.mem_range'_1.mpr ⟨h1, h2⟩)⟩
      · have hle := hw c rem s.2 pp pos (by omega) hpp
        have hsub : (rem + 2 ^ 64 - pp) % 2 ^ 64 = rem - pp := by
          rw [show rem + 2 ^ 64 - pp = (rem - pp) + 2 ^ 64 by omega, Nat.add_mod_right, Nat.mod_eq_of_lt (by omega)]
        rw [hsub] at h
        obtain ⟨h1, h2, h3⟩ := ih (c + 1) (rem - pp) (idx + pp) t s' (by omega) hk (by omega) h
        refine ⟨h1.trans f1, ?_, ?_⟩
        · intro j hj
          rw [h2 j (by omega), f3 j (by rw [List.mem_range'_1]; omega)]
        · intro j hj1 hj2
          by_cases hjp : j < idx + pp
          · rw [h2 j hjp]
            exact f4 j (List.mem_range'_1.mpr ⟨hj1, hjp⟩)
          · exact h3 j (by omega) (by omega)

/-- **C70 (patch bubbles).** If the random factors are at most 2 and the generator returns, it has filled every point inside
the bounds. -/
theorem C70_patch_partial (sqrt : K → K) (m fuel : Nat) (b : Box D K) (u w r : Nat → K) (n pos : Nat) (hm : 1 ≤ m)
    (hn : n < 2 ^ 64) (hw : ∀ k, w k ≤ 2) (pts : Pts D K)
    (h : Generate (patch sqrt m fuel b u w r n pos) pts) : Good b n pts := by
  obtain ⟨s, hs⟩ := h.done
  rw [hs] at h
  unfold patch at hs
  rw [List.range_eq_range'] at hs
  obtain ⟨h1, _, h3⟩ := patchLoop_spec m w _ (fun o => ∃ p, o = some p ∧ InBox b p) (by
      intro c pos x hx
      exact bubblePoint_spec _ _ _ _ _ _ _ _ hx) (by
      intro c rem pos pp p' hc hpp
      simp only [patchCount] at hpp
      rw [if_pos (by omega)] at hpp
      obtain ⟨a, ha, hap⟩ := Option.map_eq_some_iff.mp hpp
      cases hap
      refine toSize_le ?_ ha
      have h2 : rem / (m - c) * 2 ≤ rem := by
        have h3 : rem / (m - c) * (m - c) ≤ rem := Nat.div_mul_le_self _ _
        have h4 : rem / (m - c) * 2 ≤ rem / (m - c) * (m - c) := Nat.mul_le_mul_left _ (by omega)
        omega
      calc ((rem / (m - c) : Nat) : K) * w pos ≤ ((rem / (m - c) : Nat) : K) * 2 :=
            mul_le_mul_of_nonneg_left (hw pos) (by positivity)
        _ = ((rem / (m - c) * 2 : Nat) : K) := by push_cast; ring
        _ ≤ (rem : K) := by exact_mod_cast h2) m 0 n 1 _ _ (by omega) hm hn hs
  refine generate_good h ⟨by rw [h1, length_init], fun i hi1 hi2 => ?_⟩
  obtain ⟨o, ho, p, rfl, hp⟩ := h3 i hi1 (by omega)
  exact ⟨p, ho, hp⟩

/-- **C70 (patch bubbles) is violated.** If the first random factor is so large that the first of two bubbles gets more points
than requested, the generator writes behind the end of the points (or does not return). -/
theorem C70_patch_violated (sqrt : K → K) (fuel : Nat) (b : Box D K) (u w r : Nat → K) (q pos : Nat)
    (hw : ((2 * q + 1 : Nat) : K) ≤ q * w (pos + 2 * D)) (s : Pts D K × Nat) :
    patch sqrt 2 fuel b u w r (2 * q) pos ≠ .done s := by
  intro h
  unfold patch at h
  rw [show List.range 2 = [0, 1] from rfl, patchLoop] at h
  split at h
  · simp at h
  · next pp p' hpp =>
    obtain ⟨t, ht, _⟩ := bind_done_iff.mp h
    obtain ⟨_, f2, _, _⟩ := fill_spec _ (fun _ _ => True) _ _ _ (fun _ _ _ _ _ => trivial) ht
    simp only [patchCount] at hpp
    rw [if_pos (by omega), show 2 * q / (2 - 0) = q by omega] at hpp
    obtain ⟨a, ha, hap⟩ := Option.map_eq_some_iff.mp hpp
    cases hap
    unfold toSize at ha
    split_ifs at ha
    cases ha
    have hf : ((2 * q + 1 : Nat) : Int) ≤ ⌊(q : K) * w (pos + 2 * D)⌋ := by
      rw [Int.le_floor]; exact_mod_cast hw
    have := f2 (2 * q + 1) (List.mem_range'_1.mpr ⟨by omega, by omega⟩)
    rw [length_init] at this
    omega

/-! ### The random source -/

omit [IsStrictOrderedRing K] [FloorRing K] in
theorem fill_advances (mk : Nat → Nat → Res (Option (Vec D K) × Nat)) (hmk : ∀ i pos x, mk i pos = .done x → pos + D ≤ x.2) :
    ∀ (l : List Nat) (s s' : Pts D K × Nat), fill mk l s = .done s' → s.2 + l.length * D ≤ s'.2 := by
  intro l
  induction l with
  | nil => intro s s' h; cases h; simp
  | cons i l ih =>
    intro s s' h
    simp only [fill] at h
    obtain ⟨x, hx, h⟩ := bind_done_iff.mp h
    obtain ⟨pts, _, h⟩ := bind_done_iff.mp h
    have h1 := hmk _ _ _ hx
    have h2 := ih _ _ h
    simp only [List.length_cons, Nat.add_mul, Nat.one_mul] at h2 ⊢
    omega

omit [IsStrictOrderedRing K] [FloorRing K] in
theorem bubblePoint_advances (rad : K → K) (fuel : Nat) (b : Box D K) (cs : List (Vec D K)) (r : Nat → K) (c pos : Nat)
    (x : Option (Vec D K) × Nat) (h : bubblePoint rad fuel b cs r c pos = .done x) : pos + D ≤ x.2 := by
  have key : ∀ (f : Vec D K → Vec D K) fuel pos x, reject b f r fuel pos = .done x → pos + D ≤ x.2 := by
    intro f fuel
    induction fuel with
    | zero => intro pos x h; simp [reject] at h
    | succ fuel ih =>
      intro pos x h
      simp only [reject] at h
      split_ifs at h
      · cases h; exact le_refl _
      · have := ih _ _ h; omega
  unfold bubblePoint at h
  split at h
  · simp at h
  · split at h
    · simp at h
    · exact key _ _ _ _ h

omit [IsStrictOrderedRing K] in
/-- **C85.** The generators of unbound, malicious and patch bubbles advance the caller's random source by at least one number
per coordinate of the points they generate. -/
theorem C85_bubbles_partial (fl sqrt : K → K) (k m fuel : Nat) (rad : K) (b : Box D K) (u v w r : Nat → K) (n pos : Nat)
    (s : Pts D K × Nat) :
    (unbound fl m rad b u v n pos = .done s → pos + n * D ≤ s.2) ∧
    (malicious fl sqrt k m fuel b r n pos = .done s → pos + n * D ≤ s.2) ∧
    (patch sqrt m fuel b u w r n pos = .done s → pos + m * D ≤ s.2) := by
  refine ⟨fun h => ?_, fun h => ?_, fun h => ?_⟩
  · have := fill_advances _ (by
      intro i pos x hx
      split at hx
      · simp at hx
      · cases hx; exact le_refl _) _ _ _ h
    simp only [List.length_range] at this
    omega
  · have := fill_advances _ (fun i pos x hx => bubblePoint_advances _ _ _ _ _ _ _ _ hx) _ _ _ h
    simpa only [List.length_range] using this
  · have key : ∀ (l : List Nat) (rem idx : Nat) (t : Pts D K × Nat),
        patchLoop m w (bubblePoint (fun q => sqrt q / 2) fuel b (randomCenters b u m pos) r) l rem idx t = .done s → t.2 ≤ s.2 := by
      intro l
      induction l with
      | nil => intro rem idx t h; cases h; exact le_refl _
      | cons c l ih =>
        intro rem idx t h
        rw [patchLoop] at h
        split at h
        · simp at h
        · next pp p' hpp =>
          obtain ⟨t', ht', h⟩ := bind_done_iff.mp h
          have h1 := fill_advances _ (fun i pos x hx => bubblePoint_advances _ _ _ _ _ _ _ _ hx) _ _ _ ht'
          have h2 := ih _ _ _ h
          have h3 : t.2 ≤ p' := by
            simp only [patchCount] at hpp
            split_ifs at hpp
            · obtain ⟨a, _, hap⟩ := Option.map_eq_some_iff.mp hpp
              cases hap; omega
            · cases hpp; exact le_refl _
          dsimp only at h1
          omega
    exact key _ _ _ _ h

/-! ### Examples -/

/-- Ten unbound bubble points. -/
example : ∃ s, unbound (fl24 : ℚ → ℚ) 3 (1 / 4) unitBox (fun _ => 1 / 2) (fun _ => 1 / 8) 10 0 = .done s ∧ s.1.length = 11 ∧
    ∀ i < 10, ∃ p : Vec 2 ℚ, s.1[i]? = some (some p) ∧ InBox unitBox p :=
  C70_unbound_partial fl24 3 (1 / 4) unitBox _ _ 10 0 (fun i hi => C84_single_partial 3 10 i (by norm_num) (by norm_num)
    (by norm_num) hi) (by intro d; norm_num [unitBox]) (by intro k; norm_num) (by intro k; norm_num)

/-- Two bubbles with positive radius. -/
example : ∃ q, sqRadius unitBox [fun _ => 1 / 4, fun _ => 1 / 2] (fun _ => 1 / 4) = some q ∧ 0 < q := by
  apply C86_partial (by norm_num) unitBox (by intro d; norm_num [unitBox]) _ (by simp)
  · simp only [List.nodup_cons, List.mem_singleton, List.not_mem_nil, not_false_eq_true, List.nodup_nil, and_true]
    intro h
    have := congrFun h 0
    norm_num at this
  · simp
  · intro d; norm_num [unitBox]

/-- Two points in two patch bubbles, factor 1. -/
example : ∃ pts, Generate (patch (D := 2) (id : ℚ → ℚ) 2 1 unitBox (fun k => if k < 2 then 1 / 4 else 1 / 2) (fun _ => 1) (fun _ => 0) 2 0) pts ∧
    Good unitBox 2 pts := by
  have h : ∃ s, patch (D := 2) (id : ℚ → ℚ) 2 1 unitBox (fun k => if k < 2 then 1 / 4 else 1 / 2) (fun _ => 1) (fun _ => 0) 2 0 =
      .done s := by
    have hc : ∀ k, ∀ f : Vec 2 ℚ → Vec 2 ℚ, InBox unitBox (f (draw (fun _ => 0) k)) →
        reject unitBox f (fun _ => 0) 1 k = .done (some (f (draw (fun _ => 0) k)), k + 2) := by
      intro k f hf
      rw [reject, if_pos ((containsPoint_iff' _ _).mpr hf)]
    have hz : ∀ k, ∀ c : Vec 2 ℚ, ∀ a, add (scale (draw (fun _ => 0) k) a) c = c := by
      intro k c a; funext d; simp [add, scale, draw]
    have hq : ∀ c : Vec 2 ℚ, ∃ q, sqRadius unitBox (randomCenters unitBox (fun k => if k < 2 then 1 / 4 else 1 / 2) 2 0) c = some q := by
      intro c
      have hl : 1 < (((randomCenters unitBox (fun k => if k < 2 then 1 / 4 else 1 / 2) 2 0).map
          fun o => lenSq (Vecs.sub o c)).insertionSort (· ≤ ·)).length := by
        rw [List.length_insertionSort, List.length_map]; simp [randomCenters]
      exact ⟨_, by rw [sqRadius, List.getElem?_eq_getElem hl]; rfl⟩
    have hin : ∀ c ∈ randomCenters unitBox (fun k => if k < 2 then 1 / 4 else 1 / 2) 2 0, InBox unitBox c :=
      randomCenters_inBox _ (by intro d; norm_num [unitBox]) _ (by intro k; split_ifs <;> norm_num) 2 0
    have hmk : ∀ c < 2, ∀ pos, ∃ x, bubblePoint (fun q : ℚ => id q / 2) 1 unitBox
        (randomCenters unitBox (fun k => if k < 2 then (1 : ℚ) / 4 else 1 / 2) 2 0) (fun _ => 0) c pos = .done x := by
      intro c hlt pos
      have hl : c < (randomCenters unitBox (fun k => if k < 2 then (1 : ℚ) / 4 else 1 / 2) 2 0).length := by
        simpa [randomCenters] using hlt
      rw [bubblePoint, List.getElem?_eq_getElem hl]
      obtain ⟨q, hq⟩ := hq (randomCenters unitBox (fun k => if k < 2 then (1 : ℚ) / 4 else 1 / 2) 2 0)[c]
      dsimp only
      rw [hq]
      dsimp only
      rw [hc]
      · exact ⟨_, rfl⟩
      · rw [hz]; exact hin _ (List.getElem_mem hl)
    have hp : ∀ pos, patchCount 2 (fun _ => (1 : ℚ)) 0 2 pos = some (1, pos + 1) := by
      intro pos
      norm_num [patchCount, toSize]
    have hp1 : ∀ pos, patchCount 2 (fun _ => (1 : ℚ)) 1 1 pos = some (1, pos) := by
      intro pos
      norm_num [patchCount]
    obtain ⟨x, hx⟩ := hmk 0 (by norm_num) (0 + 2 * 2 + 1)
    obtain ⟨y, hy⟩ := hmk 1 (by norm_num) x.2
    unfold patch
    rw [show List.range 2 = [0, 1] from rfl, patchLoop, hp]
    dsimp only
    rw [show List.range' 1 1 = [1] from rfl, fill, hx, Res.bind_done, put, if_pos (by simp), Res.bind_done, fill, Res.bind_done,
      patchLoop, show (2 + 2 ^ 64 - 1) % 2 ^ 64 = 1 by norm_num, hp1]
    dsimp only
    rw [show List.range' (1 + 1) 1 = [2] from rfl, fill, hy, Res.bind_done, put, if_pos (by simp), Res.bind_done, fill,
      Res.bind_done, patchLoop]
    exact ⟨_, rfl⟩
  obtain ⟨s, hs⟩ := h
  have hg : Generate (patch (D := 2) (id : ℚ → ℚ) 2 1 unitBox (fun k => if k < 2 then 1 / 4 else 1 / 2) (fun _ => 1) (fun _ => 0) 2 0) s.1 := by
    rw [hs]; exact generate_of_done
  exact ⟨s.1, hg, C70_patch_partial _ 2 1 unitBox _ _ _ 2 0 (by norm_num) (by norm_num) (by intro k; norm_num) _ hg⟩

end Gen
end Verif
