import Verif.Model.LinearSum
import Verif.Props.Compress

/-!
# The sum of two expansions in linear time (C126)
-/
namespace Verif
namespace FP

/-! ### The order in which the components are taken -/

private def merge : List ℚ → List ℚ → List ℚ
  | [], [] => []
  | e :: es, [] => e :: es
  | [], f :: fs => f :: fs
  | e :: es, f :: fs => if pickE e f then e :: merge es (f :: fs) else f :: merge (e :: es) fs
termination_by es fs => es.length + fs.length

private theorem merge_next {es fs : List ℚ} (h : es ≠ [] ∨ fs ≠ []) : ∃ g es' fs', linNext es fs = .done (g, es', fs') ∧ merge es fs = g :: merge es' fs' ∧
    es'.length + fs'.length + 1 = es.length + fs.length := by
  match es, fs with
  | [], [] => simp at h
  | e :: es, [] =>
    refine ⟨e, es, [], rfl, ?_, by simp⟩
    rw [merge]; cases es <;> rw [merge]
  | [], f :: fs =>
    refine ⟨f, [], fs, rfl, ?_, by simp⟩
    rw [merge]; cases fs <;> rw [merge]
  | e :: es, f :: fs =>
    by_cases hp : pickE e f = true
    · refine ⟨e, es, f :: fs, by simp [linNext, hp], ?_, by simp; omega⟩
      rw [merge, if_pos hp]
    · refine ⟨f, e :: es, fs, by simp [linNext, hp], ?_, by simp; omega⟩
      rw [merge, if_neg hp]

private theorem merge_perm : ∀ es fs : List ℚ, (merge es fs).Perm (es ++ fs)
  | [], [] => by rw [merge]; simp
  | e :: es, [] => by rw [merge]; simp
  | [], f :: fs => by rw [merge]; simp
  | e :: es, f :: fs => by
    rw [merge]
    split_ifs
    · exact (merge_perm es (f :: fs)).cons e
    · refine ((merge_perm (e :: es) fs).cons f).trans ?_
      exact List.perm_middle.symm
termination_by es fs => es.length + fs.length

/-- The loop on the components in the order in which they are taken. -/
private def gl (p : Nat) (z : Bool) : List ℚ → ℚ → ℚ → List ℚ × ℚ × ℚ
  | [], Q, q => ([], q, Q)
  | g :: gs, Q, q =>
    let r := fastTwoSum p g q
    let t := twoSum p Q r.1
    let u := gl p z gs t.1 t.2
    (put z r.2 u.1, u.2)

private theorem linLoop_eq (p : Nat) (z : Bool) (n : Nat) : ∀ es fs Q q, es.length + fs.length = n → linLoop p z n es fs Q q = .done (gl p z (merge es fs) Q q) := by
  induction n with
  | zero =>
    intro es fs Q q h
    have h1 : es = [] := List.length_eq_zero_iff.mp (by omega)
    have h2 : fs = [] := List.length_eq_zero_iff.mp (by omega)
    subst h1 h2
    rw [merge]; rfl
  | succ n ih =>
    intro es fs Q q h
    obtain ⟨g, es', fs', h1, h2, h3⟩ := merge_next (es := es) (fs := fs) (by
      by_contra hc
      push Not at hc
      rw [hc.1, hc.2] at h
      simp at h)
    rw [linLoop, h1, h2]
    simp only [Res.bind, gl]
    rw [ih _ _ _ _ (by omega)]

private theorem gl_true (p : Nat) (gs : List ℚ) : ∀ Q q, gl p true gs Q q = ((gl p false gs Q q).1.filter (· ≠ 0), (gl p false gs Q q).2) := by
  induction gs with
  | nil => intro Q q; rfl
  | cons g gs ih =>
    intro Q q
    simp only [gl, ih, put, Bool.true_and, Bool.false_and, Bool.false_eq_true, if_false, decide_eq_true_eq, List.filter_cons]
    split_ifs with h h' h'
    · exact absurd h (by simpa using h')
    · rfl
    · rfl

/-! ### The order is by size -/

/-- `A` is the sum of the components before. -/
private def Good (p : Nat) : ℚ → List ℚ → Prop
  | _, [] => True
  | A, x :: g => (x ≠ 0 → |A + x| < 2 ^ (grid p x + p + 1) ∧ ∀ y ∈ g, y ≠ 0 → |x| ≤ |y|) ∧ Good p (A + x) g

private theorem part_sum {p : Nat} {l : List ℚ} (hr : ∀ x ∈ l, Rep p x) (hp : l.Pairwise Below) {m : Int} (h : ∀ x ∈ l, |x| < 2 ^ m) : |l.sum| < 2 ^ m := by
  rw [← List.sum_reverse]
  refine low_sum (p := p) l.reverse (fun x hx => hr x (List.mem_reverse.mp hx)) (List.pairwise_reverse.mpr hp) (2 ^ m) ?_ m ⟨1, odd_one, by simp⟩
  intro x hx
  exact ⟨m, 1, by simp, h x (List.mem_reverse.mp hx)⟩

private theorem le_of_below {x y : ℚ} (h : Below x y) (hy : y ≠ 0) : |x| ≤ |y| := by
  obtain ⟨k, r, h1, h2⟩ := h
  exact h2.le.trans (Mul.le_abs ⟨r, h1⟩ hy)

/-- Taking one component; `ea` and `fa` are those taken before. -/
private theorem good_step {p : Nat} {ea fa es fs : List ℚ} {x : ℚ} (hre : ∀ y ∈ ea ++ x :: es, Rep p y) (hrf : ∀ y ∈ fa ++ fs, Rep p y)
    (hpe : (ea ++ x :: es).Pairwise Below) (hpf : (fa ++ fs).Pairwise Below) (hle : ∀ y ∈ ea ++ fa, ∀ w ∈ x :: es ++ fs, w ≠ 0 → |y| ≤ |w|)
    (hx : ∀ w ∈ fs, w ≠ 0 → |x| ≤ |w|) :
    (∀ y ∈ ea ++ [x] ++ fa, ∀ w ∈ es ++ fs, w ≠ 0 → |y| ≤ |w|) ∧ (x ≠ 0 → |ea.sum + fa.sum + x| < 2 ^ (grid p x + p + 1)) := by
  have hxe : ∀ w ∈ es, w ≠ 0 → |x| ≤ |w| := by
    rw [List.pairwise_append, List.pairwise_cons] at hpe
    exact fun w hw h0 => le_of_below (hpe.2.1.1 w hw) h0
  refine ⟨?_, fun h0 => ?_⟩
  · intro y hy w hw h0
    simp only [List.mem_append, List.mem_singleton] at hy hw
    rcases hy with (hy | rfl) | hy
    · exact hle y (by simp [hy]) w (by simp only [List.cons_append, List.mem_cons, List.mem_append]; tauto) h0
    · rcases hw with hw | hw
      · exact hxe w hw h0
      · exact hx w hw h0
    · exact hle y (by simp [hy]) w (by simp only [List.cons_append, List.mem_cons, List.mem_append]; tauto) h0
  · have hm := (grid_spec p h0).2
    have h1 : |(ea ++ [x]).sum| < 2 ^ (grid p x + p) := by
      apply part_sum (p := p)
      · intro y hy
        refine hre y ?_
        simp only [List.mem_append, List.mem_singleton, List.mem_cons] at hy ⊢
        tauto
      · rw [show ea ++ x :: es = ea ++ [x] ++ es by simp, List.pairwise_append] at hpe
        exact hpe.1
      · intro y hy
        rw [List.mem_append, List.mem_singleton] at hy
        rcases hy with hy | rfl
        · exact (hle y (by simp [hy]) x (by simp) h0).trans_lt hm
        · exact hm
    have h2 : |fa.sum| < 2 ^ (grid p x + p) := by
      apply part_sum (p := p)
      · exact fun y hy => hrf y (by simp [hy])
      · exact (List.pairwise_append.mp hpf).1
      · exact fun y hy => (hle y (by simp [hy]) x (by simp) h0).trans_lt hm
    rw [List.sum_append, List.sum_singleton] at h1
    have h3 := abs_add_le (ea.sum + x) fa.sum
    rw [two_zpow_succ, show ea.sum + fa.sum + x = ea.sum + x + fa.sum by ring]
    linarith

private theorem good_merge {p : Nat} : ∀ (n : Nat) (ea fa es fs : List ℚ), es.length + fs.length = n → (∀ y ∈ ea ++ es, Rep p y) → (∀ y ∈ fa ++ fs, Rep p y) →
    (ea ++ es).Pairwise Below → (fa ++ fs).Pairwise Below → (∀ y ∈ ea ++ fa, ∀ w ∈ es ++ fs, w ≠ 0 → |y| ≤ |w|) →
    Good p (ea.sum + fa.sum) (merge es fs) := by
  intro n
  induction n with
  | zero =>
    intro ea fa es fs h
    have h1 : es = [] := List.length_eq_zero_iff.mp (by omega)
    have h2 : fs = [] := List.length_eq_zero_iff.mp (by omega)
    subst h1 h2
    intros
    rw [merge]; trivial
  | succ n ih =>
    intro ea fa es fs h hre hrf hpe hpf hle
    have take_e : ∀ x es', es = x :: es' → merge es fs = x :: merge es' fs → (∀ w ∈ fs, w ≠ 0 → |x| ≤ |w|) → Good p (ea.sum + fa.sum) (merge es fs) := by
      rintro x es' rfl hm hx
      obtain ⟨k1, k2⟩ := good_step hre hrf hpe hpf hle hx
      rw [hm]
      refine ⟨fun h0 => ⟨k2 h0, fun y hy h0' => ?_⟩, ?_⟩
      · exact k1 x (by simp) y ((merge_perm es' fs).mem_iff.mp hy) h0'
      · have := ih (ea ++ [x]) fa es' fs (by simp at h; omega) (by simpa using hre) hrf (by simpa using hpe) hpf k1
        rwa [List.sum_append, List.sum_singleton, show ea.sum + x + fa.sum = ea.sum + fa.sum + x by ring] at this
    have take_f : ∀ x fs', fs = x :: fs' → merge es fs = x :: merge es fs' → (∀ w ∈ es, w ≠ 0 → |x| ≤ |w|) → Good p (ea.sum + fa.sum) (merge es fs) := by
      rintro x fs' rfl hm hx
      obtain ⟨k1, k2⟩ := good_step (ea := fa) (fa := ea) (es := fs') (fs := es) hrf hre hpf hpe (by
        intro y hy w hw h0
        refine hle y ?_ w ?_ h0
        · simp only [List.mem_append] at hy ⊢; tauto
        · simp only [List.mem_append, List.mem_cons, List.cons_append] at hw ⊢; tauto) hx
      rw [hm]
      refine ⟨fun h0 => ⟨by rw [add_comm ea.sum]; exact k2 h0, fun y hy h0' => ?_⟩, ?_⟩
      · refine k1 x (by simp) y ?_ h0'
        have := (merge_perm es fs').mem_iff.mp hy
        simp only [List.mem_append] at this ⊢; tauto
      · have := ih ea (fa ++ [x]) es fs' (by simp at h; omega) hre (by simpa using hrf) hpe (by simpa using hpf) (by
          intro y hy w hw h0
          refine k1 y ?_ w ?_ h0
          · simp only [List.mem_append] at hy ⊢; tauto
          · simp only [List.mem_append] at hw ⊢; tauto)
        rwa [List.sum_append, List.sum_singleton, ← add_assoc] at this
    match es, fs with
    | [], [] => simp at h
    | e :: es, [] => exact take_e e es rfl (by rw [merge]; cases es <;> rw [merge]) (by simp)
    | [], f :: fs => exact take_f f fs rfl (by rw [merge]; cases fs <;> rw [merge]) (by simp)
    | e :: es, f :: fs =>
      by_cases hp : pickE e f = true
      · refine take_e e es rfl (by rw [merge, if_pos hp]) fun w hw h0 => ?_
        have h1 := pickE_true hp
        rw [List.mem_cons] at hw
        rcases hw with rfl | hw
        · exact h1
        · rw [List.pairwise_append, List.pairwise_cons] at hpf
          exact h1.trans (le_of_below (hpf.2.1.1 w hw) h0)
      · refine take_f f fs rfl (by rw [merge, if_neg hp]) fun w hw h0 => ?_
        have h1 := (pickE_false (by simpa using hp)).1
        rw [List.mem_cons] at hw
        rcases hw with rfl | hw
        · exact h1
        · rw [List.pairwise_append, List.pairwise_cons] at hpe
          exact h1.trans (le_of_below (hpe.2.1.1 w hw) h0)

/-! ### The loop -/

private theorem grid_mono {p : Nat} {x y : ℚ} (hx : x ≠ 0) (h : |x| ≤ |y|) : grid p x ≤ grid p y := le_grid ((grid_spec p hx).1.trans h)

/-- The error of rounding a number below a power. -/
private theorem err_le {p : Nat} (hp : 0 < p) {s : ℚ} {m : Int} (h : |s| ≤ 2 ^ (m + p)) : |s - rnd p s| ≤ 2 ^ m / 2 := by
  have hm := two_zpow_pos m
  by_cases h0 : s = 0
  · rw [h0, rnd_zero, sub_zero, abs_zero]; linarith
  rcases h.lt_or_eq with hlt | heq
  · have h1 := rnd_err p s
    rw [abs_sub_comm] at h1
    have h2 := two_zpow_le (grid_le h0 hlt)
    linarith
  · have : Rep p s := by
      rcases abs_choice s with h1 | h1
      · rw [← h1, heq]; exact Rep.pow p hp _
      · rw [show s = -(2 ^ (m + p)) by rw [← heq, h1, neg_neg]]; exact (Rep.pow p hp _).neg
    rw [rnd_rep this, sub_self, abs_zero]; linarith

private theorem gl_mul {p : Nat} {k : Int} (gs : List ℚ) : ∀ Q q, Mul k Q → Mul k q → (∀ x ∈ gs, Mul k x) →
    ∀ x ∈ (gl p false gs Q q).1 ++ [(gl p false gs Q q).2.1, (gl p false gs Q q).2.2], Mul k x := by
  induction gs with
  | nil =>
    intro Q q hQ hq _ x hx
    simp only [gl, List.nil_append, List.mem_cons, List.not_mem_nil, or_false] at hx
    rcases hx with rfl | rfl
    · exact hq
    · exact hQ
  | cons g gs ih =>
    intro Q q hQ hq hg x hx
    have hg0 := hg g (by simp)
    have h1 : Mul k (fastTwoSum p g q).1 := rnd_mul (hg0.add hq)
    have h2 : Mul k (fastTwoSum p g q).2 := rnd_mul (hq.sub (rnd_mul (h1.sub hg0)))
    have h3 : Mul k (twoSum p Q (fastTwoSum p g q).1).1 := rnd_mul (hQ.add h1)
    have h4 : Mul k (twoSum p Q (fastTwoSum p g q).1).2 := by
      have a1 := rnd_mul (p := p) (h3.sub hQ)
      exact rnd_mul ((rnd_mul (hQ.sub (rnd_mul (h3.sub a1)))).add (rnd_mul (h1.sub a1)))
    simp only [gl, put, Bool.false_and, Bool.false_eq_true, if_false, List.cons_append, List.mem_cons] at hx
    rcases hx with rfl | hx
    · exact h2
    · exact ih _ _ h3 h4 (fun y hy => hg y (by simp [hy])) x hx

/-- `H` is the sum of the components already written. -/
private theorem gl_ok {p : Nat} (hp : 3 ≤ p) (gs : List ℚ) : ∀ Q q H, Rep p Q → Rep p q → Q = rnd p (Q + q) → (∀ y ∈ gs, Rep p y) →
    (∀ y ∈ gs, y ≠ 0 → |q| ≤ 2 ^ grid p y) → Good p (H + Q + q) gs →
    (H = 0 ∨ ∃ k, |H| < 2 ^ k ∧ Mul k Q ∧ Mul k q ∧ ∀ y ∈ gs, y ≠ 0 → k ≤ grid p y) →
    let u := gl p false gs Q q
    let l := u.1 ++ [u.2.1, u.2.2]
    l.sum = Q + q + gs.sum ∧ (∀ x ∈ l, Rep p x) ∧ l.Pairwise Below ∧ l.length = gs.length + 2 := by
  have hp0 : 0 < p := by omega
  induction gs with
  | nil =>
    intro Q q H hQ hq hQq _ _ _ _
    simp only [gl, List.nil_append]
    refine ⟨by simp; ring, ?_, ?_, rfl⟩
    · intro x hx
      simp only [List.mem_cons, List.not_mem_nil, or_false] at hx
      rcases hx with rfl | rfl
      · exact hq
      · exact hQ
    · simp only [List.pairwise_cons, List.mem_cons, List.not_mem_nil, or_false, forall_eq, List.Pairwise.nil, and_true, false_imp_iff, implies_true]
      have h1 := rnd_err p (Q + q)
      obtain ⟨r, hr⟩ := rnd_mul_grid p (Q + q)
      rw [← hQq, show Q - (Q + q) = -q by ring, abs_neg] at h1
      have := two_zpow_pos (grid p (Q + q))
      exact ⟨grid p (Q + q), r, by rw [← hr]; exact hQq, by linarith⟩
  | cons y gs ih =>
    intro Q q H hQ hq hQq hr hqg hgood hH
    have hy := hr y (by simp)
    have hr' : ∀ x ∈ gs, Rep p x := fun x hx => hr x (by simp [hx])
    by_cases hy0 : y = 0
    · -- nothing happens
      subst hy0
      have hf : fastTwoSum p 0 q = (q, 0) := by rw [fastTwoSum_eq hp0 (Rep.zero p) hq (Or.inr rfl), zero_add, rnd_rep hq, sub_self]
      have ht : twoSum p Q q = (Q, q) := by
        rw [twoSum_eq (by omega) hQ hq, ← hQq]; simp
      have hg := hgood.2
      rw [add_zero] at hg
      obtain ⟨i1, i2, i3, i4⟩ := ih Q q H hQ hq hQq hr' (fun x hx => hqg x (by simp [hx])) hg (by
        rcases hH with h | ⟨k, k1, k2, k3, k4⟩
        · exact Or.inl h
        · exact Or.inr ⟨k, k1, k2, k3, fun x hx => k4 x (by simp [hx])⟩)
      simp only [gl, hf, ht, put, Bool.false_and, Bool.false_eq_true, if_false, List.cons_append]
      refine ⟨by rw [List.sum_cons, i1, List.sum_cons]; ring, ?_, ?_, by rw [List.length_cons, i4, List.length_cons]⟩
      · intro x hx
        rw [List.mem_cons] at hx
        rcases hx with rfl | hx
        · exact Rep.zero p
        · exact i2 x hx
      · rw [List.pairwise_cons]
        exact ⟨fun x hx => below_zero (i2 x hx), i3⟩
    obtain ⟨hA, hord⟩ := hgood.1 hy0
    have hG := hgood.2
    have hgs := grid_spec p hy0
    have hG0 := two_zpow_pos (grid p y)
    have hqy : |q| ≤ 2 ^ grid p y := hqg y (by simp) hy0
    have hylow : (2 : ℚ) ^ grid p y ≤ |y| := (two_zpow_le (by omega)).trans hgs.1
    have hf := fastTwoSum_eq hp0 hy hq (Or.inl (hqy.trans hylow))
    have hR := rep_rnd hp0 (y + q)
    have ht := twoSum_eq (p := p) (by omega) hQ hR
    -- the component that is written
    have hcar : |y + q| ≤ 2 ^ (grid p y + p) := by
      have h1 := Mul.le_sub hy.grid.abs (Mul.pow (k := grid p y + p) (by omega)) hgs.2
      have h2 := abs_add_le y q
      linarith
    have hh1 : |y + q - rnd p (y + q)| ≤ 2 ^ grid p y / 2 := err_le hp0 hcar
    have hh2 : |y + q - rnd p (y + q)| ≤ |q| := sum_err_le hp0 hy
    have hq2 : |q| ≤ 2 ^ grid p (Q + q) / 2 := by
      have h1 := rnd_err p (Q + q)
      rwa [← hQq, show Q - (Q + q) = -q by ring, abs_neg] at h1
    have hh3 : |y + q - rnd p (y + q)| ≤ 2 ^ grid p (y + q) / 2 := by
      have h1 := rnd_err p (y + q)
      rwa [abs_sub_comm] at h1
    have hQm : Mul (grid p (Q + q)) Q := by
      have := rnd_mul_grid p (Q + q)
      rwa [← hQq] at this
    -- what the later components are multiples of
    have hk' : ∃ k, 2 * |y + q - rnd p (y + q)| ≤ 2 ^ k ∧ Mul k Q ∧ Mul k (rnd p (y + q)) ∧ k ≤ grid p y := by
      refine ⟨min (grid p y) (min (grid p (Q + q)) (grid p (y + q))), ?_, hQm.mono ?_, (rnd_mul_grid p _).mono ?_, min_le_left _ _⟩
      · rcases min_choice (grid p y) (min (grid p (Q + q)) (grid p (y + q))) with h | h
        · rw [h]; linarith
        · rw [h]
          rcases min_choice (grid p (Q + q)) (grid p (y + q)) with h' | h' <;> rw [h'] <;> linarith
      · exact (min_le_right _ _).trans (min_le_left _ _)
      · exact (min_le_right _ _).trans (min_le_right _ _)
    -- the sum of what is written
    have hH' : H + (y + q - rnd p (y + q)) = 0 ∨ ∃ k, |H + (y + q - rnd p (y + q))| < 2 ^ k ∧ Mul k (Q + rnd p (y + q)) ∧ k ≤ grid p y := by
      by_cases hz : y + q - rnd p (y + q) = 0
      · rw [hz, add_zero]
        rcases hH with h | ⟨k, k1, k2, k3, k4⟩
        · exact Or.inl h
        · have hky := k4 y (by simp) hy0
          exact Or.inr ⟨k, k1, k2.add (rnd_mul ((hy.grid.mono hky).add k3)), hky⟩
      · right
        obtain ⟨k', l1, l2, l3, l4⟩ := hk'
        refine ⟨k', lt_of_lt_of_le ?_ l1, l2.add l3, l4⟩
        have h1 := abs_add_le H (y + q - rnd p (y + q))
        have h2 := abs_pos.mpr hz
        rcases hH with rfl | ⟨k, k1, k2, k3, k4⟩
        · rw [zero_add]; linarith
        · have h3 := Mul.le_abs (sum_err_mul (p := p) ((hy.grid.mono (k4 y (by simp) hy0)).add k3)) hz
          linarith
    -- the new error
    have hs : |Q + rnd p (y + q)| ≤ 2 ^ (grid p y + 1 + p) := by
      have hAe : H + Q + q + y = H + (y + q - rnd p (y + q)) + (Q + rnd p (y + q)) := by ring
      rw [hAe, show grid p y + p + 1 = grid p y + 1 + p by ring] at hA
      rcases hH' with h | ⟨k, k1, k2, k3⟩
      · rw [h, zero_add] at hA; exact hA.le
      · by_contra hc
        have h1 := Mul.le_sub (Mul.pow (k := grid p y + 1 + p) (l := k) (by omega)) k2.abs (not_le.mp hc)
        have h2 := abs_sub_abs_le_abs_sub (Q + rnd p (y + q)) (-(H + (y + q - rnd p (y + q))))
        rw [abs_neg, sub_neg_eq_add, add_comm (Q + rnd p (y + q))] at h2
        linarith
    have hq' : |Q + rnd p (y + q) - rnd p (Q + rnd p (y + q))| ≤ 2 ^ grid p y := by
      have := err_le hp0 hs
      rw [two_zpow_succ] at this
      linarith
    have hge : ∀ x ∈ gs, x ≠ 0 → grid p y ≤ grid p x := fun x hx h0 => grid_mono hy0 (hord x hx h0)
    obtain ⟨i1, i2, i3, i4⟩ := ih (rnd p (Q + rnd p (y + q))) (Q + rnd p (y + q) - rnd p (Q + rnd p (y + q))) (H + (y + q - rnd p (y + q)))
      (rep_rnd hp0 _) (sum_err_rep hp0 hQ hR) (by rw [add_sub_cancel]) hr' (fun x hx h0 => hq'.trans (two_zpow_le (hge x hx h0)))
      (by
        rw [show H + (y + q - rnd p (y + q)) + rnd p (Q + rnd p (y + q)) + (Q + rnd p (y + q) - rnd p (Q + rnd p (y + q))) = H + Q + q + y by ring]
        exact hG)
      (by
        rcases hH' with h | ⟨k, k1, k2, k3⟩
        · exact Or.inl h
        · exact Or.inr ⟨k, k1, rnd_mul k2, sum_err_mul k2, fun x hx h0 => k3.trans (hge x hx h0)⟩)
    simp only [gl, hf, ht, put, Bool.false_and, Bool.false_eq_true, if_false, List.cons_append]
    refine ⟨by rw [List.sum_cons, i1, List.sum_cons]; ring, ?_, ?_, by rw [List.length_cons, i4, List.length_cons]⟩
    · intro x hx
      rw [List.mem_cons] at hx
      rcases hx with rfl | hx
      · exact sum_err_rep hp0 hy hq
      · exact i2 x hx
    · rw [List.pairwise_cons]
      refine ⟨below_all i2 fun h0 => ?_, i3⟩
      obtain ⟨k', l1, l2, l3, l4⟩ := hk'
      have := abs_pos.mpr h0
      refine ⟨k', by linarith, gl_mul gs _ _ (rnd_mul (l2.add l3)) (sum_err_mul (l2.add l3)) fun x hx => ?_⟩
      by_cases hx0 : x = 0
      · rw [hx0]; exact Mul.zero _
      · exact (hr' x hx).grid.mono (l4.trans (hge x hx hx0))

/-! ### The functions -/

private theorem linAll_ok {p : Nat} (hp : 3 ≤ p) {e f : List ℚ} (he : ∀ x ∈ e, Rep p x) (hf : ∀ x ∈ f, Rep p x) (hne : e ≠ []) (hnf : f ≠ [])
    (hpe : e.Pairwise Below) (hpf : f.Pairwise Below) :
    ∃ u : List ℚ × ℚ × ℚ, linAll p false e f = .done u ∧ linAll p true e f = .done (u.1.filter (· ≠ 0), u.2) ∧ (u.1 ++ [u.2.1, u.2.2]).sum = e.sum + f.sum ∧
    (∀ x ∈ u.1 ++ [u.2.1, u.2.2], Rep p x) ∧ (u.1 ++ [u.2.1, u.2.2]).Pairwise Below ∧ (u.1 ++ [u.2.1, u.2.2]).length = e.length + f.length := by
  have hp0 : 0 < p := by omega
  have hle := List.length_pos_of_ne_nil hne
  have hlf := List.length_pos_of_ne_nil hnf
  obtain ⟨g0, es0, fs0, a1, a2, a3⟩ := merge_next (fs := f) (Or.inl hne)
  obtain ⟨g1, es1, fs1, b1, b2, b3⟩ := merge_next (es := es0) (fs := fs0) (by
    by_contra hc
    push Not at hc
    rw [hc.1, hc.2] at a3
    simp at a3
    omega)
  have hm : merge e f = g0 :: g1 :: merge es1 fs1 := by rw [a2, b2]
  have hgood := good_merge (p := p) _ [] [] e f rfl (by simpa using he) (by simpa using hf) (by simpa using hpe) (by simpa using hpf) (by simp)
  have hrep : ∀ x ∈ merge e f, Rep p x := by
    intro x hx
    have := (merge_perm e f).mem_iff.mp hx
    rw [List.mem_append] at this
    exact this.elim (he x) (hf x)
  have hsum : (merge e f).sum = e.sum + f.sum := by rw [(merge_perm e f).sum_eq, List.sum_append]
  have hlen : (merge e f).length = e.length + f.length := by rw [(merge_perm e f).length_eq, List.length_append]
  rw [hm] at hgood hrep hsum hlen
  have hg0 := hrep g0 (by simp)
  have hg1 := hrep g1 (by simp)
  -- the first step is one of the loop
  have hle01 : |g0| ≤ |g1| ∨ g1 = 0 := by
    by_cases h1 : g1 = 0
    · exact Or.inr h1
    · by_cases h0 : g0 = 0
      · left; rw [h0, abs_zero]; exact abs_nonneg _
      · exact Or.inl ((hgood.1 h0).2 g1 (by simp) h1)
  have hfirst := fastTwoSum_eq hp0 hg1 hg0 hle01
  have hz : fastTwoSum p g1 0 = (g1, 0) := by
    rw [fastTwoSum_eq hp0 hg1 (Rep.zero p) (Or.inl (by rw [abs_zero]; exact abs_nonneg _)), add_zero, rnd_rep hg1, sub_self]
  have hgl : gl p false (g1 :: merge es1 fs1) g0 0 =
      (0 :: (gl p false (merge es1 fs1) (fastTwoSum p g1 g0).1 (fastTwoSum p g1 g0).2).1, (gl p false (merge es1 fs1) (fastTwoSum p g1 g0).1 (fastTwoSum p g1 g0).2).2) := by
    simp only [gl, hz, put, Bool.false_and, Bool.false_eq_true, if_false, twoSum_eq (p := p) (by omega) hg0 hg1, hfirst, add_comm g0 g1]
  obtain ⟨i1, i2, i3, i4⟩ := gl_ok hp (g1 :: merge es1 fs1) g0 0 0 hg0 (Rep.zero p) (by rw [add_zero, rnd_rep hg0])
    (fun x hx => hrep x (by simp only [List.mem_cons] at hx ⊢; tauto)) (fun x _ _ => by rw [abs_zero]; exact (two_zpow_pos _).le)
    (by have := hgood.2; simpa using this) (Or.inl rfl)
  rw [hgl] at i1 i2 i3 i4
  simp only [List.cons_append, List.sum_cons, List.mem_cons, List.pairwise_cons, List.length_cons, zero_add, add_zero] at i1 i2 i3 i4 hsum hlen
  refine ⟨gl p false (merge es1 fs1) (fastTwoSum p g1 g0).1 (fastTwoSum p g1 g0).2, ?_, ?_, ?_, fun x hx => i2 x (Or.inr hx), i3.2, by omega⟩
  · simp only [linAll, hne, hnf, or_self, if_false, a1, b1, Res.bind]
    exact linLoop_eq p false _ _ _ _ _ (by omega)
  · simp only [linAll, hne, hnf, or_self, if_false, a1, b1, Res.bind, ← gl_true]
    exact linLoop_eq p true _ _ _ _ _ (by omega)
  · rw [i1, ← hsum]

/-- `linear_expansion_sum`: for arguments whose components do not overlap, the sum is exact, the components are floating point numbers, as many as
both arguments have, and they do not overlap; the last one that is not zero has the sign of the sum. -/
theorem C126_linear {p : Nat} (hp : 3 ≤ p) {e f : List ℚ} (he : ∀ x ∈ e, IsFloat p x) (hf : ∀ x ∈ f, IsFloat p x) (hne : e ≠ []) (hnf : f ≠ [])
    (hpe : Nonoverlapping e) (hpf : Nonoverlapping f) :
    ∃ h, linearSum p e f = .done h ∧ h.sum = e.sum + f.sum ∧ (∀ x ∈ h, IsFloat p x) ∧ h.length = e.length + f.length ∧ Nonoverlapping h ∧
    SignType.sign (topNonzero h) = SignType.sign (e.sum + f.sum) := by
  simp only [isFloat_iff] at he hf ⊢
  obtain ⟨u, u1, _, u3, u4, u5, u6⟩ := linAll_ok hp he hf hne hnf ((pairwise_iff he).mp hpe) ((pairwise_iff hf).mp hpf)
  have hn := (pairwise_iff u4).mpr u5
  exact ⟨_, by rw [linearSum, u1]; rfl, u3, u4, u6, hn, by rw [← u3]; exact sign_topNonzero u4 hn⟩

/-- `linear_expansion_sum_zeroelim`: the same, with at most as many components, and no zeros unless the result is the single component 0; so
the last component has the sign of the sum. -/
theorem C126_linearZ {p : Nat} (hp : 3 ≤ p) {e f : List ℚ} (he : ∀ x ∈ e, IsFloat p x) (hf : ∀ x ∈ f, IsFloat p x) (hne : e ≠ []) (hnf : f ≠ [])
    (hpe : Nonoverlapping e) (hpf : Nonoverlapping f) :
    ∃ h, linearSumZ p e f = .done h ∧ h.sum = e.sum + f.sum ∧ (∀ x ∈ h, IsFloat p x) ∧ h.length ≤ e.length + f.length ∧ Nonoverlapping h ∧
    ((∀ x ∈ h, x ≠ 0) ∨ h = [0]) ∧ SignType.sign (h.getLastD 0) = SignType.sign (e.sum + f.sum) := by
  simp only [isFloat_iff] at he hf ⊢
  obtain ⟨u, _, u2, u3, u4, u5, u6⟩ := linAll_ok hp he hf hne hnf ((pairwise_iff he).mp hpe) ((pairwise_iff hf).mp hpf)
  have hl : u.1.filter (· ≠ 0) ++ (if u.2.1 ≠ 0 then [u.2.1] else []) = (u.1 ++ [u.2.1]).filter (· ≠ 0) := by
    rw [List.filter_append]
    by_cases h : u.2.1 = 0 <;> simp [h]
  have hd : linearSumZ p e f = .done (finish ((u.1 ++ [u.2.1]).filter (· ≠ 0), u.2.2)) := by
    rw [linearSumZ, u2]
    simp only [Res.bind]
    rw [hl]
  obtain ⟨f1, f2, f3⟩ := finish_filter (u.1 ++ [u.2.1]) u.2.2
  rw [List.append_assoc, List.singleton_append] at f1 f3
  have hr : ∀ x ∈ finish ((u.1 ++ [u.2.1]).filter (· ≠ 0), u.2.2), Rep p x := fun x hx => u4 x (f3 x hx)
  have hn := (nonoverlapping_congr f1).mpr ((pairwise_iff u4).mpr u5)
  refine ⟨_, hd, by rw [sum_congr f1, u3], hr, ?_, hn, f2, ?_⟩
  · rcases f2 with h | h
    · have hs : (finish ((u.1 ++ [u.2.1]).filter (· ≠ 0), u.2.2)).filter (· ≠ 0) = finish ((u.1 ++ [u.2.1]).filter (· ≠ 0), u.2.2) :=
        List.filter_eq_self.mpr fun x hx => by simpa using h x hx
      rw [← u6, ← hs, f1]
      exact List.length_filter_le _ _
    · rw [h]
      have := List.length_pos_of_ne_nil hne
      simp; omega
  · rw [last_of_nonzero f2, sign_topNonzero hr hn, sum_congr f1, u3]

/-! ### Examples -/

private theorem exf : ∀ x ∈ ([1, 0, 2 ^ 60] : List ℚ), IsFloat 53 x := by
  intro x hx
  simp only [List.mem_cons, List.not_mem_nil, or_false] at hx
  rcases hx with rfl | rfl | rfl
  · exact ⟨1, 0, by norm_num, by norm_num⟩
  · exact ⟨0, 0, by norm_num, by norm_num⟩
  · exact ⟨1, 60, by norm_num, by norm_num⟩

private theorem exn : Nonoverlapping [1, 0, 2 ^ 60] := by
  rw [pairwise_iff (p := 53) fun x hx => isFloat_iff.mp (exf x hx)]
  simp only [List.pairwise_cons, List.mem_cons, List.not_mem_nil, or_false, forall_eq_or_imp, forall_eq, List.Pairwise.nil, and_true,
    false_imp_iff, implies_true]
  exact ⟨⟨⟨1, 0, by norm_num, by norm_num⟩, ⟨60, 1, by norm_num, by norm_num⟩⟩, ⟨60, 1, by norm_num, by norm_num⟩⟩

example : linearSum 53 [1, 0, 2 ^ 60] [3] = .done [0, 0, 4, 2 ^ 60] ∧ linearSumZ 53 [1, 0, 2 ^ 60] [3] = .done [4, 2 ^ 60] := by decide +kernel

example : ∃ h, linearSum 53 [1, 0, 2 ^ 60] [1, 0, 2 ^ 60] = .done h ∧ h.sum = 2 + 2 ^ 61 ∧ Nonoverlapping h := by
  obtain ⟨h, h1, h2, _, _, h3, _⟩ := C126_linear (p := 53) (by norm_num) exf exf (by simp) (by simp) exn exn
  exact ⟨h, h1, h2.trans (by norm_num), h3⟩

example : ∃ h, linearSumZ 53 [1, 0, 2 ^ 60] [1, 0, 2 ^ 60] = .done h ∧ SignType.sign (h.getLastD 0) = 1 := by
  obtain ⟨h, h1, _, _, _, _, _, h2⟩ := C126_linearZ (p := 53) (by norm_num) exf exf (by simp) (by simp) exn exn
  exact ⟨h, h1, h2.trans (sign_pos (by norm_num))⟩

end FP
end Verif
