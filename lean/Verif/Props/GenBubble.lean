import Verif.Props.Gen
import Mathlib.Tactic.FinCases

/-!
# C70, C85: bubbles, ellipsoid and lines; the random source
-/
namespace Verif
namespace Gen
open Vecs
variable {D : Nat} {K : Type} [Field K] [LinearOrder K]

/-! ### Bubbles -/

theorem bubbleLoop_spec (fuel : Nat) (b : Box D K) (r : Nat → K) (ppB : Nat) :
    ∀ (l : List Nat) (s s' : Pts D K × Nat), bubbleLoop fuel b r ppB l s = .done s' →
      s'.1.length = s.1.length ∧
        (∀ j : Nat, (∀ k ∈ l, ¬ (k * ppB + 1 ≤ j ∧ j < k * ppB + 1 + ppB)) → s'.1[j]? = s.1[j]?) ∧
        ∀ j : Nat, (∃ k ∈ l, k * ppB + 1 ≤ j ∧ j < k * ppB + 1 + ppB) → ∃ p, s'.1[j]? = some (some p) ∧ InBox b p := by
  intro l
  induction l with
  | nil =>
    intro s s' h
    cases h
    simp
  | cons k l ih =>
    intro s s' h
    simp only [bubbleLoop] at h
    obtain ⟨t, ht, h⟩ := bind_done_iff.mp h
    obtain ⟨h1, h2, h3⟩ := ih t s' h
    obtain ⟨f1, _, f3, f4⟩ := fill_spec _ (fun _ o => ∃ p, o = some p ∧ InBox b p) _ _ _
      (fun i _ pos x hx => reject_spec b (around (bubbleBox b k)) r fuel pos x hx) ht
    refine ⟨h1.trans f1, ?_, ?_⟩
    · intro j hj
      rw [h2 j fun k' hk' => hj k' (List.mem_cons_of_mem _ hk'), f3 j fun hm => hj k List.mem_cons_self (List.mem_range'_1.mp hm)]
    · intro j hj
      by_cases hjl : ∃ k ∈ l, k * ppB + 1 ≤ j ∧ j < k * ppB + 1 + ppB
      · exact h3 j hjl
      · obtain ⟨k', hk', hjk⟩ := hj
        have hkk : k' = k := by
          rcases List.mem_cons.mp hk' with h | h
          · exact h
          · exact absurd ⟨k', h, hjk⟩ hjl
        subst hkk
        obtain ⟨o, ho, p, rfl, hp⟩ := f4 j (List.mem_range'_1.mpr hjk)
        rw [h2 j fun k hk hc => hjl ⟨k, hk, hc⟩]
        exact ⟨p, ho, hp⟩

/-- **C70 (bubbles).** If the bubble generator returns and the number of points is a multiple of the number of bubbles, it has
filled every point inside the bounds. -/
theorem C70_bubble_partial (fuel : Nat) (b : Box D K) (r : Nat → K) (n pos : Nat) (hn : 2 ^ D ∣ n) (pts : Pts D K)
    (h : Generate (bubble fuel b r n pos) pts) : Good b n pts := by
  obtain ⟨s, hs⟩ := h.done
  rw [hs] at h
  obtain ⟨_, e, he⟩ := onCopy_done hs
  obtain ⟨h1, _, h3⟩ := bubbleLoop_spec fuel b r _ _ _ _ he
  refine generate_good h ⟨by rw [h1, length_init], fun i hi1 hi2 => h3 i ?_⟩
  obtain ⟨q, rfl⟩ := hn
  have hpos : 0 < 2 ^ D := Nat.two_pow_pos D
  rw [Nat.mul_div_cancel_left q hpos]
  have hq : 0 < q := by
    rcases Nat.eq_zero_or_pos q with rfl | h
    · omega
    · exact h
  have hlt : (i - 1) / q < 2 ^ D := by
    rw [Nat.div_lt_iff_lt_mul hq]; omega
  refine ⟨(i - 1) / q, List.mem_range.mpr hlt, ?_, ?_⟩
  · have := Nat.div_mul_le_self (i - 1) q
    omega
  · have := Nat.lt_div_mul_add (a := i - 1) hq
    omega

/-- **C70 (bubbles) is violated.** If the number of points is not a multiple of the number of bubbles, one of the points is
never initialised, whatever the spatial sort does. -/
theorem C70_bubble_violated (fuel : Nat) (b : Box D K) (r : Nat → K) (n pos : Nat) (hn : ¬ 2 ^ D ∣ n) (pts : Pts D K)
    (h : Generate (bubble fuel b r n pos) pts) : Hole n pts ∧ ¬ Good b n pts := by
  obtain ⟨s, hs⟩ := h.done
  rw [hs] at h
  obtain ⟨_, e, he⟩ := onCopy_done hs
  obtain ⟨h1, h2, _⟩ := bubbleLoop_spec fuel b r _ _ _ _ he
  have hpos : 0 < 2 ^ D := Nat.two_pow_pos D
  have hn1 : 1 ≤ n := by
    rcases Nat.eq_zero_or_pos n with rfl | h
    · exact absurd (dvd_zero _) hn
    · exact h
  have hlt : 2 ^ D * (n / 2 ^ D) < n := by
    rcases Nat.lt_or_eq_of_le (Nat.mul_div_le n (2 ^ D)) with h | h
    · exact h
    · exact absurd ⟨_, h.symm⟩ hn
  have hhole : Hole n s.1 := by
    refine ⟨n, hn1, le_refl _, ?_⟩
    have := h2 n (by
      rintro k hk ⟨_, hk2⟩
      have hk := List.mem_range.mp hk
      have : (k + 1) * (n / 2 ^ D) ≤ 2 ^ D * (n / 2 ^ D) := Nat.mul_le_mul_right _ hk
      rw [Nat.add_mul, Nat.one_mul] at this
      omega)
    exact this.trans (init_get hn1 (le_refl _))
  have := generate_hole h (by rw [h1, length_init]) hhole
  exact ⟨this, not_good_of_hole this⟩

theorem bubbleLoop_mono (b : Box D K) (r : Nat → K) (ppB : Nat) :
    ∀ (l : List Nat) (a : Nat) (s s' : Pts D K × Nat), bubbleLoop a b r ppB l s = .done s' →
      ∀ c, a ≤ c → bubbleLoop c b r ppB l s = .done s' := by
  intro l
  induction l with
  | nil => intro a s s' h c _; exact h
  | cons k l ih =>
    intro a s s' h c hc
    simp only [bubbleLoop] at h ⊢
    obtain ⟨t, ht, h⟩ := bind_done_iff.mp h
    rw [fill_mono (fun a _ pos => reject b (around (bubbleBox b k)) r a pos)
      (fun a i pos x h c hc => reject_mono b _ r a pos x h c hc) _ a _ t ht c hc, Res.bind_done]
    exact ih a t s' h c hc

/-- **C70 (bubbles, returns).** The bubble generator returns if good draws never run out. -/
theorem C70_bubble_ends (b : Box D K) (r : Nat → K) (n pos : Nat)
    (hr : ∀ k < 2 ^ D, ∀ j, ∃ t, InBox b (around (bubbleBox b k) (draw r (pos + j * D + t * D)))) :
    ∃ fuel pts, Generate (bubble fuel b r n pos) pts := by
  have key : ∀ (l : List Nat) (s : Pts D K × Nat), (∀ k ∈ l, k < 2 ^ D) → s.1.length = n + 1 → (∃ j, s.2 = pos + j * D) →
      ∃ fuel s', bubbleLoop fuel b r (n / 2 ^ D) l s = .done s' := by
    intro l
    induction l with
    | nil => intro s _ _ _; exact ⟨0, s, rfl⟩
    | cons k l ih =>
      intro s hl hlen hj
      have hk := hl k List.mem_cons_self
      obtain ⟨f1, t, ht, hjt⟩ := fill_reject_ends b (around (bubbleBox b k)) r pos (hr k hk)
        (List.range' (k * (n / 2 ^ D) + 1) (n / 2 ^ D)) s (by
          intro i hi
          have h2 := (List.mem_range'_1.mp hi).2
          have h3 : (k + 1) * (n / 2 ^ D) ≤ 2 ^ D * (n / 2 ^ D) := Nat.mul_le_mul_right _ hk
          have h4 := Nat.mul_div_le n (2 ^ D)
          rw [Nat.add_mul, Nat.one_mul] at h3
          omega) hj
      have hlt : t.1.length = n + 1 := by
        rw [(fill_spec _ (fun _ _ => True) _ _ _ (fun _ _ _ _ _ => trivial) ht).1, hlen]
      obtain ⟨f2, s', hs'⟩ := ih t (fun j hj => hl j (List.mem_cons_of_mem _ hj)) hlt hjt
      refine ⟨max f1 f2, s', ?_⟩
      simp only [bubbleLoop]
      rw [fill_mono (fun a _ pos => reject b (around (bubbleBox b k)) r a pos)
        (fun a i pos x h c hc => reject_mono b _ r a pos x h c hc) _ f1 _ t ht _ (Nat.le_max_left _ _), Res.bind_done]
      exact bubbleLoop_mono b r _ l f2 t s' hs' _ (Nat.le_max_right _ _)
  obtain ⟨fuel, s, hs⟩ := key (List.range (2 ^ D)) (init n, pos) (fun k hk => List.mem_range.mp hk) (length_init n) ⟨0, by simp⟩
  exact ⟨fuel, s.1, by rw [bubble, onCopy_of_done (s := s) hs]; exact generate_of_done⟩

/-! ### Ellipsoid -/

theorem ellipsoidPoint_inBox [IsStrictOrderedRing K] (sqrt : K → K) (hsq : ∀ x, 0 ≤ x → sqrt x * sqrt x = x ∧ 0 ≤ sqrt x)
    (b : Box D K) (hb : ∀ d, b.low d ≤ b.high d) (v : Vec D K) (hv : ∃ d, v d ≠ 0) :
    ∃ p, ellipsoidPoint sqrt b v = some p ∧ InBox b p := by
  have hsum : lenSq v = ∑ d, v d * v d := lenSq_eq v
  have hle : ∀ d, v d * v d ≤ lenSq v := by
    intro d
    rw [hsum]
    exact Finset.single_le_sum (fun d _ => mul_self_nonneg (v d)) (Finset.mem_univ d)
  have hpos : 0 < lenSq v := by
    obtain ⟨d, hd⟩ := hv
    exact lt_of_lt_of_le (mul_self_pos.mpr hd) (hle d)
  obtain ⟨h1, h2⟩ := hsq (lenSq v) hpos.le
  have hr : 0 < sqrt (lenSq v) := by
    rcases h2.lt_or_eq with h | h
    · exact h
    · rw [← h] at h1; simp at h1; exact absurd h1.symm hpos.ne'
  simp only [ellipsoidPoint]
  rw [if_neg hr.ne']
  refine ⟨_, rfl, fun d => ?_⟩
  have habs : |v d / sqrt (lenSq v)| ≤ 1 := by
    rw [abs_div, abs_of_pos hr, div_le_one hr]
    exact abs_le_of_sq_le_sq (by rw [pow_two, pow_two, h1]; exact hle d) hr.le
  obtain ⟨ha, hc⟩ := abs_le.mp habs
  have he : 0 ≤ 45 / 100 * (b.high d - b.low d) := mul_nonneg (by norm_num) (by linarith [hb d])
  have hx1 := mul_le_mul_of_nonneg_left ha he
  have hx2 := mul_le_mul_of_nonneg_left hc he
  have := hb d
  constructor <;> linarith

/-- **C70 (ellipsoid).** The ellipsoid generator fills every point inside the bounds if no draw is zero in all dimensions. -/
theorem C70_ellipsoid_partial [IsStrictOrderedRing K] (sqrt : K → K) (hsq : ∀ x, 0 ≤ x → sqrt x * sqrt x = x ∧ 0 ≤ sqrt x)
    (b : Box D K) (r : Nat → K) (n pos : Nat) (hb : ∀ d, b.low d ≤ b.high d)
    (hr : ∀ j, ∃ d : Fin D, r (pos + j * D + d) ≠ 0) :
    (∃ pts, Generate (ellipsoid sqrt b r n pos) pts) ∧ ∀ pts, Generate (ellipsoid sqrt b r n pos) pts → Good b n pts := by
  constructor
  · obtain ⟨s, hs⟩ := fill_done (fun _ pos => .done (ellipsoidPoint sqrt b (draw r pos), pos + D))
      (List.range' 1 n) (init n, pos) (by
        intro i hi
        rw [length_init]
        have := (List.mem_range'_1.mp hi).2
        omega) fun i _ pos => ⟨_, rfl⟩
    exact ⟨_, by rw [ellipsoid, onCopy_of_done hs]; exact generate_of_done⟩
  · intro pts h
    obtain ⟨s, hs⟩ := h.done
    rw [hs] at h
    obtain ⟨_, e, he⟩ := onCopy_done hs
    obtain ⟨h1, _, _, h4⟩ := fill_spec_inv (fun p => ∃ j, p = pos + j * D) _ (fun _ o => ∃ p, o = some p ∧ InBox b p) _ _ _
      ⟨0, by simp⟩ (by
        rintro i _ p x ⟨j, rfl⟩ hx
        cases hx
        exact ⟨ellipsoidPoint_inBox sqrt hsq b hb _ (hr j), j + 1, by ring⟩) he
    refine generate_good h ⟨by rw [h1, length_init], fun i hi1 hi2 => ?_⟩
    obtain ⟨o, ho, p, rfl, hp⟩ := h4 i (List.mem_range'_1.mpr ⟨hi1, by omega⟩)
    exact ⟨p, ho, hp⟩

/-- **C70 (ellipsoid) is violated.** If the first draw is zero in all dimensions, the coordinates of a point are not
numbers. -/
theorem C70_ellipsoid_violated [IsStrictOrderedRing K] (sqrt : K → K) (hsq : sqrt 0 = 0) (b : Box D K) (r : Nat → K)
    (n pos : Nat) (hn : 1 ≤ n) (hr : ∀ d : Fin D, r (pos + d) = 0) (pts : Pts D K)
    (h : Generate (ellipsoid sqrt b r n pos) pts) : Hole n pts ∧ ¬ Good b n pts := by
  obtain ⟨s, hs⟩ := h.done
  rw [hs] at h
  obtain ⟨_, e, he⟩ := onCopy_done hs
  obtain ⟨m, rfl⟩ : ∃ m, n = m + 1 := ⟨n - 1, by omega⟩
  rw [List.range'_succ, fill] at he
  have hz : ellipsoidPoint sqrt b (draw r pos) = none := by
    have : lenSq (draw r pos : Vec D K) = 0 := by
      rw [lenSq_eq]
      exact Finset.sum_eq_zero fun d _ => by simp [draw, hr d]
    simp [ellipsoidPoint, this, hsq]
  rw [Res.bind_done, put, if_pos (by simp), Res.bind_done] at he
  obtain ⟨f1, _, f3, _⟩ := fill_spec _ (fun _ _ => True) _ _ _ (fun _ _ _ _ _ => trivial) he
  simp only [List.length_set, length_init] at f1
  have hhole : Hole (m + 1) s.1 := by
    refine ⟨1, le_refl _, hn, ?_⟩
    have := f3 1 (by simp [List.mem_range'_1])
    rw [this]
    simp [hz, init]
  have := generate_hole h f1 hhole
  exact ⟨this, not_good_of_hole this⟩

/-! ### Lines -/

theorem skewLoop_spec (a x c y : Vec D K) (r : Nat → K) (P : Option (Vec D K) → Prop)
    (hP : ∀ k, P (some fun d => a d + r k * x d) ∧ P (some fun d => c d + r k * y d)) :
    ∀ (l : List Nat) (s s' : Pts D K × Nat), skewLoop a x c y r l s = .done s' →
      s'.1.length = s.1.length ∧ (∀ j : Nat, (∀ k ∈ l, j ≠ k ∧ j ≠ k + 1) → s'.1[j]? = s.1[j]?) ∧
        ∀ j : Nat, (∃ k ∈ l, j = k ∨ j = k + 1) → ∃ o, s'.1[j]? = some o ∧ P o := by
  intro l
  induction l with
  | nil =>
    intro s s' h
    cases h
    simp
  | cons k l ih =>
    intro s s' h
    simp only [skewLoop] at h
    obtain ⟨p1, hp1, h⟩ := bind_done_iff.mp h
    obtain ⟨p2, hp2, h⟩ := bind_done_iff.mp h
    obtain ⟨hk, rfl⟩ := put_done hp1
    obtain ⟨hk1, rfl⟩ := put_done hp2
    obtain ⟨h1, h2, h3⟩ := ih _ s' h
    simp only [List.length_set] at h1 hk1
    refine ⟨h1, ?_, ?_⟩
    · intro j hj
      obtain ⟨e1, e2⟩ := hj k List.mem_cons_self
      rw [h2 j fun k' hk' => hj k' (List.mem_cons_of_mem _ hk')]
      dsimp only
      rw [List.getElem?_set_ne (Ne.symm e2), List.getElem?_set_ne (Ne.symm e1)]
    · intro j hj
      by_cases hjl : ∃ k ∈ l, j = k ∨ j = k + 1
      · exact h3 j hjl
      · obtain ⟨k', hk', hjk⟩ := hj
        have hkk : k' = k := by
          rcases List.mem_cons.mp hk' with h | h
          · exact h
          · exact absurd ⟨k', h, hjk⟩ hjl
        subst hkk
        rw [h2 j fun k hk => ⟨fun hc => hjl ⟨k, hk, .inl hc⟩, fun hc => hjl ⟨k, hk, .inr hc⟩⟩]
        dsimp only
        rcases hjk with rfl | rfl
        · rw [List.getElem?_set_ne (by omega), List.getElem?_set_self hk]
          exact ⟨_, rfl, (hP _).1⟩
        · rw [List.getElem?_set_self (by rw [List.length_set]; exact hk1)]
          exact ⟨_, rfl, (hP _).2⟩

theorem skewLoop_done (a x c y : Vec D K) (r : Nat → K) :
    ∀ (l : List Nat) (s : Pts D K × Nat), (∀ k ∈ l, k + 1 < s.1.length) → ∃ s', skewLoop a x c y r l s = .done s' := by
  intro l
  induction l with
  | nil => intro s _; exact ⟨s, rfl⟩
  | cons k l ih =>
    intro s hl
    have hk := hl k List.mem_cons_self
    simp only [skewLoop, put]
    rw [if_pos (by omega), Res.bind_done, if_pos (by rw [List.length_set]; exact hk), Res.bind_done]
    exact ih _ fun j hj => by simpa using hl j (List.mem_cons_of_mem _ hj)

section
variable [IsStrictOrderedRing K]

theorem on_line {b : Box D K} {p q : Vec D K} (hp : InBox b p) (hq : InBox b q) {t : K} (h0 : 0 ≤ t) (h1 : t ≤ 1) :
    InBox b fun d => p d + t * (q d - p d) := by
  intro d
  obtain ⟨p1, p2⟩ := hp d
  obtain ⟨q1, q2⟩ := hq d
  constructor
  · nlinarith [mul_nonneg h0 (sub_nonneg.mpr q1), mul_nonneg (sub_nonneg.mpr h1) (sub_nonneg.mpr p1)]
  · nlinarith [mul_nonneg h0 (sub_nonneg.mpr q2), mul_nonneg (sub_nonneg.mpr h1) (sub_nonneg.mpr p2)]

omit [IsStrictOrderedRing K] in
theorem corner_inBox {b : Box D K} {v : Vec D K} (hv : InBox b v) (k : Nat) (h : k < D) {x : K}
    (hx : b.low ⟨k, h⟩ ≤ x ∧ x ≤ b.high ⟨k, h⟩) : InBox b (corner v k x) := by
  intro d
  simp only [corner]
  split_ifs with hd
  · have : d = ⟨k, h⟩ := Fin.ext hd
    subst this
    exact hx
  · exact hv d

omit [IsStrictOrderedRing K] in
/-- The generator of skew lines returns for every number of points. -/
theorem skewLine_returns (hD : 1 < D) (b : Box D K) (r : Nat → K) (n pos : Nat) :
    ∃ pts, Generate (skewLine hD b r n pos) pts := by
  unfold skewLine
  obtain ⟨s, hs⟩ := skewLoop_done (corner b.low 1 (b.low ⟨1, hD⟩ + 1 / 10 * (b.high ⟨1, hD⟩ - b.low ⟨1, hD⟩)))
    (fun d => b.high d - corner b.low 1 (b.low ⟨1, hD⟩ + 1 / 10 * (b.high ⟨1, hD⟩ - b.low ⟨1, hD⟩)) d)
    (corner b.low 0 (b.high ⟨0, by omega⟩)) (fun d => corner b.high 0 (b.low ⟨0, by omega⟩) d - corner b.low 0 (b.high ⟨0, by omega⟩) d)
    r (List.range' 1 (n / 2) 2) (init n, pos) (by
      intro k hk
      rw [length_init]
      obtain ⟨i, hi, rfl⟩ := List.mem_range'.mp hk
      omega)
  exact ⟨_, by rw [onCopy_of_done (s := s) hs]; exact generate_of_done⟩

/-- **C70 (lines).** For an even number of points the generator of skew lines fills every point inside the bounds. -/
theorem C70_skewLine_partial (hD : 1 < D) (b : Box D K) (r : Nat → K) (n pos : Nat) (hn : Even n)
    (hb : ∀ d, b.low d ≤ b.high d) (hr : ∀ k, 0 ≤ r k ∧ r k ≤ 1) :
    (∃ pts, Generate (skewLine hD b r n pos) pts) ∧ ∀ pts, Generate (skewLine hD b r n pos) pts → Good b n pts := by
  constructor
  · exact skewLine_returns hD b r n pos
  · intro pts h
    obtain ⟨s, hs⟩ := h.done
    rw [hs] at h
    obtain ⟨_, e, he⟩ := onCopy_done hs
    have hlow : InBox b b.low := fun d => ⟨le_refl _, hb d⟩
    have hhigh : InBox b b.high := fun d => ⟨hb d, le_refl _⟩
    obtain ⟨h1, _, h3⟩ := skewLoop_spec _ _ _ _ _ (fun o => ∃ p, o = some p ∧ InBox b p) (by
      intro k
      obtain ⟨r0, r1⟩ := hr k
      have e1 := hb ⟨1, hD⟩
      exact ⟨⟨_, rfl, on_line (corner_inBox hlow 1 hD ⟨by nlinarith, by nlinarith⟩) hhigh r0 r1⟩,
        ⟨_, rfl, on_line (corner_inBox hlow 0 (by omega) ⟨hb _, le_refl _⟩) (corner_inBox hhigh 0 (by omega) ⟨le_refl _, hb _⟩) r0 r1⟩⟩)
      _ _ _ he
    refine generate_good h ⟨by rw [h1, length_init], fun i hi1 hi2 => ?_⟩
    obtain ⟨q, hq⟩ := hn
    obtain ⟨o, ho, p, rfl, hp⟩ := h3 i ⟨1 + 2 * ((i - 1) / 2), List.mem_range'.mpr ⟨(i - 1) / 2, by omega, rfl⟩, by omega⟩
    exact ⟨p, ho, hp⟩

omit [IsStrictOrderedRing K] in
/-- **C70 (lines) is violated.** For an odd number of points the generator of skew lines leaves a point uninitialised. -/
theorem C70_skewLine_violated (hD : 1 < D) (b : Box D K) (r : Nat → K) (n pos : Nat) (hn : Odd n) (pts : Pts D K)
    (h : Generate (skewLine hD b r n pos) pts) : Hole n pts ∧ ¬ Good b n pts := by
  obtain ⟨s, hs⟩ := h.done
  rw [hs] at h
  obtain ⟨_, e, he⟩ := onCopy_done hs
  obtain ⟨h1, h2, _⟩ := skewLoop_spec _ _ _ _ _ (fun _ => True) (fun _ => ⟨trivial, trivial⟩) _ _ _ he
  obtain ⟨q, rfl⟩ := hn
  have hhole : Hole (2 * q + 1) s.1 := by
    refine ⟨2 * q + 1, by omega, le_refl _, ?_⟩
    have := h2 (2 * q + 1) (by
      intro k hk
      obtain ⟨i, hi, rfl⟩ := List.mem_range'.mp hk
      omega)
    exact this.trans (init_get (by omega) (le_refl _))
  have := generate_hole h (by rw [h1, length_init]) hhole
  exact ⟨this, not_good_of_hole this⟩

end

/-! ### The random source -/

/-- **C85 is violated.** The generators of `Generator.h` leave the caller's random source as it is. -/
theorem C85_violated (fuel : Nat) (sqrt : K → K) (hD : 1 < D) (b : Box D K) (r : Nat → K) (n pos : Nat) (s : Pts D K × Nat)
    (h : uniform b r n pos = .done s ∨ normal fuel b r n pos = .done s ∨ bubble fuel b r n pos = .done s ∨
      ellipsoid sqrt b r n pos = .done s ∨ skewLine hD b r n pos = .done s) : s.2 = pos := by
  rcases h with h | h | h | h | h <;> exact (onCopy_done h).1

/-- A loop that generates points again and again with the same random source, like `--seq-fault`: the points of all rounds.
(src/exe/DAC_Test.cpp:277-290) -/
def rounds (g : Nat → Res (Pts D K × Nat)) : Nat → Nat → Res (List (Pts D K))
  | 0, _ => .done []
  | k + 1, pos => (g pos).bind fun s => (rounds g k s.2).bind fun l => .done (s.1 :: l)

/-- **C85 (consequence).** All rounds of `--seq-fault` have the same points. -/
theorem C85_seq_fault_violated (g : Nat → Res (Pts D K × Nat)) :
    ∀ (k pos : Nat) (l : List (Pts D K)), rounds (onCopy g) k pos = .done l → ∀ p ∈ l, ∀ q ∈ l, p = q := by
  have key : ∀ (k pos : Nat) (l : List (Pts D K)), rounds (onCopy g) k pos = .done l →
      ∀ p ∈ l, ∃ e, g pos = .done (p, e) := by
    intro k
    induction k with
    | zero => intro pos l h; cases h; simp
    | succ k ih =>
      intro pos l h
      simp only [rounds] at h
      obtain ⟨s, hs, h⟩ := bind_done_iff.mp h
      obtain ⟨l', hl', h⟩ := bind_done_iff.mp h
      cases h
      obtain ⟨hpos, e, he⟩ := onCopy_done hs
      rw [hpos] at hl'
      intro p hp
      rcases List.mem_cons.mp hp with rfl | hp
      · exact ⟨e, he⟩
      · exact ih pos l' hl' p hp
  intro k pos l h p hp q hq
  obtain ⟨e, he⟩ := key k pos l h p hp
  obtain ⟨e', he'⟩ := key k pos l h q hq
  rw [he] at he'
  cases he'
  rfl

/-! ### Examples -/

/-- The unit square. -/
def unitBox : Box 2 ℚ := ⟨fun _ => 0, fun _ => 1⟩

/-- Three points of the uniform generator. -/
example : ∃ pts, Generate (uniform unitBox (fun k => if k % 2 = 0 then 1 / 4 else 1) 3 0) pts ∧ Good unitBox 3 pts := by
  have h := C70_uniform unitBox (fun k => if k % 2 = 0 then 1 / 4 else 1) 3 0 (by intro d; norm_num [unitBox]) (by
    intro k; split_ifs <;> norm_num)
  obtain ⟨pts, hp⟩ := h.1
  exact ⟨pts, hp, h.2 pts hp⟩

/-- Eight points of the bubble generator are all initialised, five points are not. -/
example : (∃ fuel pts, Generate (bubble fuel unitBox (fun _ => 0) 8 0) pts ∧ Good unitBox 8 pts) ∧
    ∃ fuel pts, Generate (bubble fuel unitBox (fun _ => 0) 5 0) pts ∧ Hole 5 pts := by
  have hc : ∀ k j : Nat, InBox unitBox (around (bubbleBox unitBox k) (draw (fun _ => 0) j)) := by
    intro k j d
    simp only [around, bubbleBox, draw, unitBox]
    split_ifs <;> norm_num
  constructor
  · obtain ⟨fuel, pts, h⟩ := C70_bubble_ends unitBox (fun _ => 0) 8 0 fun k _ j => ⟨0, hc k _⟩
    exact ⟨fuel, pts, h, C70_bubble_partial fuel unitBox _ 8 0 (by decide) pts h⟩
  · obtain ⟨fuel, pts, h⟩ := C70_bubble_ends unitBox (fun _ => 0) 5 0 fun k _ j => ⟨0, hc k _⟩
    exact ⟨fuel, pts, h, (C70_bubble_violated fuel unitBox _ 5 0 (by decide) pts h).1⟩

/-- Two points on the skew lines are initialised, the third one is not. -/
example : (∃ pts, Generate (skewLine (by decide) unitBox (fun _ => 1 / 2) 2 0) pts ∧ Good unitBox 2 pts) ∧
    ∃ pts, Generate (skewLine (by decide) unitBox (fun _ => 1 / 2) 3 0) pts ∧ Hole 3 pts := by
  constructor
  · have h := C70_skewLine_partial (by decide) unitBox (fun _ => 1 / 2) 2 0 (by decide) (by intro d; norm_num [unitBox])
      (by intro k; norm_num)
    obtain ⟨pts, hp⟩ := h.1
    exact ⟨pts, hp, h.2 pts hp⟩
  · obtain ⟨pts, h⟩ := skewLine_returns (by decide) unitBox (fun _ => 1 / 2) 3 0
    exact ⟨pts, h, (C70_skewLine_violated _ unitBox _ 3 0 (by decide) pts h).1⟩

/-- Three rounds of `--seq-fault` with two points each. -/
example : ∃ l, rounds (uniform unitBox (fun k => (1 : ℚ) / (k + 1)) 2) 3 0 = .done l ∧ l.length = 3 ∧
    ∀ p ∈ l, ∀ q ∈ l, p = q := by
  have h : ∃ l, rounds (uniform unitBox (fun k => (1 : ℚ) / (k + 1)) 2) 3 0 = .done l ∧ l.length = 3 := ⟨_, rfl, rfl⟩
  obtain ⟨l, h, hl⟩ := h
  refine ⟨l, h, hl, ?_⟩
  unfold uniform at h
  exact C85_seq_fault_violated _ 3 0 l h

end Gen
end Verif
