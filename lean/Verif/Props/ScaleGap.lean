import Verif.Props.Compress

/-!
# Multiplying an expansion keeps its components apart (C128)
-/
namespace Verif
namespace FP

/-- `c` is 0 or 1: the digits of `x` are below those of `y`, with `c` digits between them. -/
private def R (c : Nat) (x y : ℚ) : Prop := Below (2 ^ c * x) y

private theorem R.zero_left {c p : Nat} {y : ℚ} (h : Rep p y) : R c 0 y := by
  unfold R; rw [mul_zero]; exact below_zero h

private theorem R_iff {p c : Nat} {l : List ℚ} (hr : ∀ x ∈ l, Rep p x) : (l.filter (· ≠ 0)).Pairwise (R c) ↔ l.Pairwise (R c) := by
  induction l with
  | nil => simp
  | cons x l ih =>
    have ih := ih fun y hy => hr y (by simp [hy])
    by_cases h0 : x = 0
    · subst h0
      rw [List.filter_cons_of_neg (by simp), ih, List.pairwise_cons]
      exact ⟨fun h => ⟨fun y hy => R.zero_left (hr y (by simp [hy])), h⟩, fun h => h.2⟩
    · rw [List.filter_cons_of_pos (by simpa using h0), List.pairwise_cons, List.pairwise_cons, ih]
      refine and_congr_left fun _ => ⟨fun h y hy => ?_, fun h y hy => h y (List.mem_filter.mp hy).1⟩
      by_cases hy0 : y = 0
      · rw [hy0]; exact below_zero_right _
      · exact h y (List.mem_filter.mpr ⟨hy, by simpa using hy0⟩)

private theorem non_iff {l : List ℚ} : Nonoverlapping l ↔ (l.filter (· ≠ 0)).Pairwise (R 0) := by
  unfold Nonoverlapping R; simp only [pow_zero, one_mul]

private theorem nonadj_iff {l : List ℚ} : Nonadjacent l ↔ (l.filter (· ≠ 0)).Pairwise (R 1) := by
  unfold Nonadjacent R; simp only [pow_one]

private theorem R_all {p c : Nat} {x : ℚ} {l : List ℚ} (hl : ∀ y ∈ l, Rep p y) (h : x ≠ 0 → ∃ k, |2 ^ c * x| < 2 ^ k ∧ ∀ y ∈ l, Mul k y) :
    ∀ y ∈ l, R c x y :=
  below_all hl fun h0 => h (by rintro rfl; simp at h0)

/-- The error of a rounded number and the number itself. -/
private theorem rnd_R {c : Nat} (hc : c ≤ 1) (p : Nat) (s : ℚ) : ∃ k, |2 ^ c * (s - rnd p s)| < 2 ^ k ∧ Mul k (rnd p s) ∧ k ≤ grid p s + c := by
  have h := rnd_err p s
  rw [abs_sub_comm] at h
  have hg := two_zpow_pos (grid p s)
  rcases Nat.le_one_iff_eq_zero_or_eq_one.mp hc with rfl | rfl
  · exact ⟨grid p s, by rw [pow_zero, one_mul]; linarith, rnd_mul_grid p s, by simp⟩
  · have e : |2 ^ 1 * (s - rnd p s)| = 2 * |s - rnd p s| := by rw [abs_mul]; norm_num
    rcases lt_or_eq_of_le h with h | h
    · exact ⟨grid p s, by rw [e]; linarith, rnd_mul_grid p s, by simp⟩
    · refine ⟨grid p s + 1, ?_, rnd_tie p s (by rw [abs_sub_comm]; exact h), by simp⟩
      rw [e, two_zpow_succ]; linarith

private theorem sterbenz {p : Nat} {a b : ℚ} (ha : Rep p a) (hb : Rep p b) (h1 : a / 2 ≤ b) (h2 : b ≤ a) : Rep p (a - b) := by
  by_cases h0 : b = 0
  · have : a = 0 := by rw [h0] at h1 h2; linarith
    rw [this, h0, sub_zero]; exact Rep.zero p
  · have hb0 : 0 < b := lt_of_le_of_ne (by linarith) (Ne.symm h0)
    have hg := (grid_spec p h0)
    have hle : grid p b ≤ grid p a := le_grid (hg.1.trans (by rw [abs_of_pos hb0, abs_of_pos (by linarith)]; exact h2))
    refine ⟨grid p b, (ha.grid.mono hle).sub hb.grid, lt_of_le_of_lt ?_ hg.2⟩
    rw [abs_of_nonneg (by linarith), abs_of_pos hb0]; linarith

private theorem zpow_half (k : Int) : (2 : ℚ) ^ k = 2 * 2 ^ (k - 1) := by
  rw [show k = (k - 1) + 1 by ring, two_zpow_succ]; ring_nf

/-- The error of a product, relative to a bound of the product. -/
private theorem err_small {p : Nat} (hp : 4 ≤ p) {x B : ℚ} (h : |x| ≤ B) : |x - rnd p x| ≤ B / 8 := by
  by_cases h0 : x = 0
  · rw [h0, rnd_zero, sub_zero, abs_zero]; rw [h0, abs_zero] at h; linarith
  · have h1 := rnd_err p x
    rw [abs_sub_comm] at h1
    have h2 := (grid_spec p h0).1
    have h3 := two_zpow_le (show grid p x + 3 ≤ grid p x + p - 1 by omega)
    rw [zpow_add₀ (by norm_num : (2 : ℚ) ≠ 0)] at h3
    have := two_zpow_pos (grid p x)
    norm_num at h3
    linarith

private theorem unit_exact {p : Nat} {e b : ℚ} {k : Int} (hb : Rep p b) (h : |e| = 2 ^ k) : rnd p (e * b) = e * b := by
  apply rnd_rep
  have := hb.scale k
  rcases abs_choice e with h' | h' <;> rw [h'] at h
  · rw [h, mul_comm]; exact this
  · rw [show e * b = -(b * 2 ^ k) by rw [← h]; ring]; exact this.neg

private theorem upper {p : Nat} (hp : 4 ≤ p) {e b Q : ℚ} {k κ : Int} (hb : Rep p b) (hk : IsLsb k e) (he : |e| < 2 ^ κ) (hQ : |Q| ≤ 2 ^ k * |b|) :
    rnd p (e * b) + rnd p (Q + (e * b - rnd p (e * b))) ≤ 2 ^ κ * |b| := by
  have hp0 : 0 < p := by omega
  have hb0 := abs_nonneg b
  have hkκ : k < κ := lt_of_two_zpow (hk.le_abs.trans_lt he)
  have hsub := Mul.le_sub hk.mul.abs (Mul.pow hkκ.le) he
  have hrep : ∀ j : Int, Rep p (2 ^ j * |b|) := fun j => by rw [mul_comm]; exact hb.abs.scale j
  have heb : |e * b| ≤ (2 ^ κ - 2 ^ k) * |b| := by rw [abs_mul]; exact mul_le_mul_of_nonneg_right (by linarith) hb0
  have heb' : |e * b| ≤ 2 ^ κ * |b| := heb.trans (mul_le_mul_of_nonneg_right (by linarith [two_zpow_pos k]) hb0)
  by_cases h : 2 ^ κ * |b| / 2 ≤ rnd p (e * b)
  · have h1 : rnd p (e * b) ≤ 2 ^ κ * |b| := rnd_le hp0 (hrep _) ((le_abs_self _).trans heb')
    have h2 := rnd_le (x := Q + (e * b - rnd p (e * b))) hp0 (sterbenz (hrep κ) (rep_rnd hp0 _) h h1) (by
      have := le_abs_self (e * b)
      have := le_abs_self Q
      linarith)
    linarith
  · have h1 : Q + (e * b - rnd p (e * b)) ≤ 2 ^ (κ - 1) * |b| := by
      by_cases h2 : k = κ - 1
      · have h3 : |e| = 2 ^ k := by
          refine le_antisymm ?_ hk.le_abs
          rw [h2] at hsub ⊢
          rw [zpow_half κ] at hsub
          linarith
        rw [unit_exact hb h3, sub_self, add_zero, ← h2]
        exact (le_abs_self Q).trans hQ
      · have h3 := two_zpow_le (show k ≤ κ - 1 - 1 by omega)
        have h4 := zpow_half κ
        have h5 := zpow_half (κ - 1)
        have h6 := err_small hp heb'
        have h7 := le_abs_self (e * b - rnd p (e * b))
        have h8 := le_abs_self Q
        have h9 := mul_le_mul_of_nonneg_right h3 hb0
        rw [h4, h5] at h6
        rw [h5]
        have := mul_nonneg (two_zpow_pos (κ - 1 - 1)).le hb0
        linarith
    have h2 := rnd_le hp0 (hrep _) h1
    rw [zpow_half κ] at h ⊢
    push Not at h
    linarith

private theorem step_bound {p : Nat} (hp : 4 ≤ p) {e b Q : ℚ} {k κ : Int} (hb : Rep p b) (hk : IsLsb k e) (he : |e| < 2 ^ κ) (hQ : |Q| ≤ 2 ^ k * |b|) :
    |rnd p (e * b) + rnd p (Q + (e * b - rnd p (e * b)))| ≤ 2 ^ κ * |b| := by
  rw [abs_le]
  refine ⟨?_, upper hp hb hk he hQ⟩
  have h := upper hp (b := -b) (Q := -Q) hb.neg hk he (by rwa [abs_neg, abs_neg])
  rw [abs_neg, show e * -b = -(e * b) by ring, rnd_neg, show -Q + (-(e * b) - -rnd p (e * b)) = -(Q + (e * b - rnd p (e * b))) by ring, rnd_neg] at h
  linarith

/-- The precondition of the `Fast_Two_Sum`. -/
private theorem step_fast {p : Nat} (hp : 4 ≤ p) {e b Q : ℚ} {k : Int} (hb : Rep p b) (hq : Rep p Q) (hk : IsLsb k e) (hQ : |Q| ≤ 2 ^ k * |b|) :
    |rnd p (Q + (e * b - rnd p (e * b)))| ≤ |rnd p (e * b)| := by
  have hp0 : 0 < p := by omega
  have hb0 := abs_nonneg b
  have hrep : ∀ j : Int, Rep p (2 ^ j * |b|) := fun j => by rw [mul_comm]; exact hb.abs.scale j
  by_cases h : |e| = 2 ^ k
  · rw [unit_exact hb h, sub_self, add_zero, rnd_rep hq, abs_mul, h]; exact hQ
  · have h1 : 2 * 2 ^ k ≤ |e| := by
      have := Mul.le_sub (Mul.pow (le_refl k)) hk.mul.abs (lt_of_le_of_ne hk.le_abs (Ne.symm h))
      linarith
    rw [← two_zpow_succ] at h1
    have h2 : 2 ^ (k + 1) * |b| ≤ |rnd p (e * b)| := by
      refine le_abs_rnd hp0 (hrep _) ?_
      rw [abs_mul]; exact mul_le_mul_of_nonneg_right h1 hb0
    refine abs_rnd_le hp0 (rep_rnd hp0 _).abs ?_
    have h3 : |e * b - rnd p (e * b)| ≤ |rnd p (e * b)| / 2 := by
      by_cases h0 : e * b = 0
      · rw [h0, rnd_zero, sub_zero, abs_zero]; norm_num
      · have g1 := le_abs_rnd hp0 (Rep.pow p hp0 _) (grid_spec p h0).1
        have g2 := rnd_err p (e * b)
        rw [abs_sub_comm] at g2
        have g3 := two_zpow_le (show grid p (e * b) ≤ grid p (e * b) + p - 1 by omega)
        linarith
    have h4 := abs_add_le Q (e * b - rnd p (e * b))
    rw [two_zpow_succ] at h2
    linarith

/-! ### The loop -/

/-- The loop in exact numbers. -/
private def tail (p : Nat) (b : ℚ) : List ℚ → ℚ → List ℚ × ℚ
  | [], Q => ([], Q)
  | e :: es, Q =>
    let P := rnd p (e * b)
    let t := e * b - P
    let S := rnd p (Q + t)
    let r := tail p b es (rnd p (P + S))
    ((Q + t - S) :: (P + S - rnd p (P + S)) :: r.1, r.2)

private theorem tail_rep {p : Nat} (hp : 0 < p) {b : ℚ} (hb : Rep p b) (es : List ℚ) : ∀ Q, (∀ x ∈ es, Rep p x) → Rep p Q →
    ∀ x ∈ (tail p b es Q).1 ++ [(tail p b es Q).2], Rep p x := by
  induction es with
  | nil => intro Q _ hQ x hx; simp [tail] at hx; rwa [hx]
  | cons e es ih =>
    intro Q he hQ x hx
    simp only [tail, List.cons_append, List.mem_cons] at hx
    rcases hx with rfl | rfl | hx
    · exact sum_err_rep hp hQ (prod_err_rep hp (he e (by simp)) hb)
    · exact sum_err_rep hp (rep_rnd hp _) (rep_rnd hp _)
    · exact ih _ (fun x hx => he x (by simp [hx])) (rep_rnd hp _) x hx

private theorem tail_mul {p : Nat} {b : ℚ} {j : Int} (es : List ℚ) : ∀ Q, (∀ x ∈ es, Mul j (x * b)) → Mul j Q →
    ∀ x ∈ (tail p b es Q).1 ++ [(tail p b es Q).2], Mul j x := by
  induction es with
  | nil => intro Q _ hQ x hx; simp [tail] at hx; rwa [hx]
  | cons e es ih =>
    intro Q he hQ x hx
    have h0 := he e (by simp)
    have ht := hQ.add (sum_err_mul (p := p) h0)
    have hs := (rnd_mul (p := p) h0).add (rnd_mul (p := p) ht)
    simp only [tail, List.cons_append, List.mem_cons] at hx
    rcases hx with rfl | rfl | hx
    · exact sum_err_mul ht
    · exact sum_err_mul hs
    · exact ih _ (fun x hx => he x (by simp [hx])) (rnd_mul hs) x hx

private theorem R.lt {c : Nat} {x y : ℚ} {k : Int} (h : R c x y) (hk : IsLsb k y) : |x| < 2 ^ (k - c) := by
  obtain ⟨j, r, hj, hlt⟩ := h
  have h1 := hlt.trans_le (two_zpow_le (hk.max ⟨r, hj⟩))
  rw [abs_mul, abs_of_pos (by positivity : (0 : ℚ) < 2 ^ c)] at h1
  have h2 : (2 : ℚ) ^ k = 2 ^ c * 2 ^ (k - c) := by
    rw [← zpow_natCast, ← zpow_add₀ (by norm_num : (2 : ℚ) ≠ 0)]; ring_nf
  rw [h2] at h1
  exact lt_of_mul_lt_mul_left h1 (by positivity)

/-- Everything that comes later is a multiple of a power above the error. -/
private theorem later {p c : Nat} {b s : ℚ} {es : List ℚ} {β j : Int} (hr : ∀ x ∈ es, Rep p x) (hβ : Mul β b) (hlt : |b| < 2 ^ (β + p)) (h0 : s ≠ 0)
    (hs : ∀ e ∈ es, ∀ k, IsLsb k e → |s| ≤ 2 ^ (k - c) * |b|) (hj : j ≤ grid p s + c) : ∀ e ∈ es, Mul j (e * b) := by
  intro e he
  by_cases he0 : e = 0
  · rw [he0, zero_mul]; exact Mul.zero _
  · obtain ⟨k, hk⟩ := (hr e he).lsb he0
    have h1 := hs e he k hk
    have h2 : grid p s ≤ k - c + β := by
      refine grid_le h0 (h1.trans_lt ?_)
      rw [show k - c + β + p = (k - c) + (β + p) by ring, zpow_add₀ (by norm_num : (2 : ℚ) ≠ 0)]
      exact mul_lt_mul_of_pos_left hlt (two_zpow_pos _)
    exact (Mul.mul hk.mul hβ).mono (by omega)

private theorem tail_R {p c : Nat} (hp : 4 ≤ p) (hc : c ≤ 1) {b : ℚ} (hb : Rep p b) (es : List ℚ) : ∀ Q, (∀ x ∈ es, Rep p x) → Rep p Q → es.Pairwise (R c) →
    (∀ e ∈ es, ∀ k, IsLsb k e → |Q| ≤ 2 ^ (k - c) * |b|) → ((tail p b es Q).1 ++ [(tail p b es Q).2]).Pairwise (R c) := by
  have hp0 : 0 < p := by omega
  obtain ⟨β, hβ, hβlt⟩ := id hb
  have hb0 := abs_nonneg b
  have hrep : ∀ j : Int, Rep p (2 ^ j * |b|) := fun j => by rw [mul_comm]; exact hb.abs.scale j
  induction es with
  | nil => intro Q _ _ _ _; simp [tail]
  | cons e es ih =>
    intro Q hr hQ hpw hinv
    have hr' : ∀ x ∈ es, Rep p x := fun x hx => hr x (by simp [hx])
    rw [List.pairwise_cons] at hpw
    have hT := tail_rep hp0 hb es (rnd p (rnd p (e * b) + rnd p (Q + (e * b - rnd p (e * b))))) hr' (rep_rnd hp0 _)
    have hTm : ∀ j, _ := fun j => tail_mul (p := p) (b := b) (j := j) es (rnd p (rnd p (e * b) + rnd p (Q + (e * b - rnd p (e * b)))))
    by_cases he0 : e = 0
    · have e1 : rnd p (e * b) = 0 := by rw [he0, zero_mul, rnd_zero]
      have e2 : rnd p (Q + (e * b - rnd p (e * b))) = Q := by rw [e1, he0, zero_mul, sub_zero, add_zero, rnd_rep hQ]
      have ih' := ih Q hr' hQ hpw.2 fun x hx => hinv x (by simp [hx])
      simp only [tail, e2]
      rw [e2, e1, zero_add, rnd_rep hQ] at hT
      rw [e1, he0, zero_mul, sub_zero, add_zero, sub_self, zero_add, rnd_rep hQ, sub_self]
      simp only [List.cons_append, List.pairwise_cons, List.mem_cons]
      refine ⟨?_, fun y hy => R.zero_left (hT y hy), ih'⟩
      rintro y (rfl | hy)
      · exact R.zero_left (Rep.zero p)
      · exact R.zero_left (hT y hy)
    · obtain ⟨k, hk⟩ := (hr e (by simp)).lsb he0
      have hQk : |Q| ≤ 2 ^ k * |b| :=
        (hinv e (by simp) k hk).trans (mul_le_mul_of_nonneg_right (two_zpow_le (by omega)) hb0)
      have hbd : ∀ x ∈ es, ∀ k', IsLsb k' x → |rnd p (e * b) + rnd p (Q + (e * b - rnd p (e * b)))| ≤ 2 ^ (k' - c) * |b| :=
        fun x hx k' hk' => step_bound hp hb hk ((hpw.1 x hx).lt hk') hQk
      have hebd : ∀ x ∈ es, ∀ k', IsLsb k' x → |e * b| ≤ 2 ^ (k' - c) * |b| := fun x hx k' hk' => by
        rw [abs_mul]; exact mul_le_mul_of_nonneg_right ((hpw.1 x hx).lt hk').le hb0
      have ih' := ih _ hr' (rep_rnd hp0 _) hpw.2 fun x hx k' hk' => abs_rnd_le hp0 (hrep _) (hbd x hx k' hk')
      have hr1 := prod_err_rep hp0 (hr e (by simp)) hb
      simp only [tail, List.cons_append, List.pairwise_cons]
      have hrh : Rep p (rnd p (e * b) + rnd p (Q + (e * b - rnd p (e * b))) - rnd p (rnd p (e * b) + rnd p (Q + (e * b - rnd p (e * b))))) :=
        sum_err_rep hp0 (rep_rnd hp0 _) (rep_rnd hp0 _)
      refine ⟨R_all (p := p) ?_ fun hx => ?_, R_all hT fun hx => ?_, ih'⟩
      · intro y hy
        rw [List.mem_cons] at hy
        rcases hy with rfl | hy
        · exact hrh
        · exact hT y hy
      · obtain ⟨i, i1, i2, i3⟩ := rnd_R hc p (Q + (e * b - rnd p (e * b)))
        obtain ⟨j, j1, j2, j3⟩ := rnd_R hc p (e * b)
        have hle : |Q + (e * b - rnd p (e * b)) - rnd p (Q + (e * b - rnd p (e * b)))| ≤ |e * b - rnd p (e * b)| := sum_err_le hp0 hQ
        have hj : |2 ^ c * (Q + (e * b - rnd p (e * b)) - rnd p (Q + (e * b - rnd p (e * b))))| < 2 ^ j := by
          refine lt_of_le_of_lt ?_ j1
          rw [abs_mul, abs_mul]
          exact mul_le_mul_of_nonneg_left hle (abs_nonneg _)
        have heb0 : e * b ≠ 0 := by
          intro h; rw [h, rnd_zero, sub_zero, abs_zero] at hle
          exact hx (by rw [h, rnd_zero, sub_zero]; exact abs_nonpos_iff.mp hle)
        have hlat := later hr' hβ hβlt heb0 hebd j3
        refine ⟨min i j, ?_, ?_⟩
        · rcases le_total i j with h | h
          · rw [min_eq_left h]; exact i1
          · rw [min_eq_right h]; exact hj
        · have m1 := (j2.mono (min_le_right i j)).add (i2.mono (min_le_left i j))
          intro y hy
          rw [List.mem_cons] at hy
          rcases hy with rfl | hy
          · exact sum_err_mul m1
          · exact hTm _ (fun x hx => (hlat x hx).mono (min_le_right i j)) (rnd_mul m1) y hy
      · obtain ⟨i, i1, i2, i3⟩ := rnd_R hc p (rnd p (e * b) + rnd p (Q + (e * b - rnd p (e * b))))
        have hs0 : rnd p (e * b) + rnd p (Q + (e * b - rnd p (e * b))) ≠ 0 := by
          intro h; rw [h, rnd_zero, sub_zero] at hx; exact hx rfl
        exact ⟨i, i1, hTm _ (later hr' hβ hβlt hs0 hbd i3) i2⟩

/-! ### The functions -/

private theorem scaleAllLoop_tail {p : Nat} (hp : 4 ≤ p) {b : ℚ} (hb : Rep p b) (es : List ℚ) : ∀ Q, (∀ x ∈ es, Rep p x) → Rep p Q →
    scaleAllLoop p (2 ^ half p + 1) b es Q = tail p b es Q := by
  have hp0 : 0 < p := by omega
  induction es with
  | nil => intro Q _ _; rfl
  | cons e es ih =>
    intro Q he hQ
    have h0 := he e (by simp)
    simp only [scaleAllLoop, tail, twoProduct_eq hp h0 hb]
    rw [twoSum_eq (by omega) hQ (prod_err_rep hp0 h0 hb), twoSum_eq (by omega) (rep_rnd hp0 _) (rep_rnd hp0 _)]
    simp only [ih _ (fun x hx => he x (by simp [hx])) (rep_rnd hp0 _)]

private theorem head_R {p c : Nat} (hp : 4 ≤ p) (hc : c ≤ 1) {b e0 : ℚ} {es : List ℚ} (hb : Rep p b) (he : ∀ x ∈ e0 :: es, Rep p x)
    (hpw : (e0 :: es).Pairwise (R c)) :
    ((e0 * b - rnd p (e0 * b)) :: ((tail p b es (rnd p (e0 * b))).1 ++ [(tail p b es (rnd p (e0 * b))).2])).Pairwise (R c) ∧
    (∀ e ∈ es, ∀ k, IsLsb k e → |rnd p (e0 * b)| ≤ 2 ^ (k - c) * |b|) := by
  have hp0 : 0 < p := by omega
  have hb0 := abs_nonneg b
  have hr' : ∀ x ∈ es, Rep p x := fun x hx => he x (by simp [hx])
  rw [List.pairwise_cons] at hpw
  have hbd : ∀ x ∈ es, ∀ k, IsLsb k x → |e0 * b| ≤ 2 ^ (k - c) * |b| := fun x hx k hk => by
    rw [abs_mul]; exact mul_le_mul_of_nonneg_right ((hpw.1 x hx).lt hk).le hb0
  have hinv : ∀ e ∈ es, ∀ k, IsLsb k e → |rnd p (e0 * b)| ≤ 2 ^ (k - c) * |b| :=
    fun x hx k hk => abs_rnd_le hp0 (by rw [mul_comm]; exact hb.abs.scale _) (hbd x hx k hk)
  refine ⟨?_, hinv⟩
  rw [List.pairwise_cons]
  refine ⟨R_all (tail_rep hp0 hb es _ hr' (rep_rnd hp0 _)) fun hx => ?_, tail_R hp hc hb es _ hr' (rep_rnd hp0 _) hpw.2 hinv⟩
  obtain ⟨β, hβ, hβlt⟩ := id hb
  obtain ⟨i, i1, i2, i3⟩ := rnd_R hc p (e0 * b)
  have h0 : e0 * b ≠ 0 := by intro h; rw [h, rnd_zero, sub_zero] at hx; exact hx rfl
  exact ⟨i, i1, tail_mul es _ (later hr' hβ hβlt h0 hbd i3) i2⟩

/-- **C128**: `scale_expansion` keeps components that do not overlap so, and components that are not adjacent not adjacent; so the last
component that is not zero has the sign of the product. -/
theorem C128_scale {p : Nat} (hp : 4 ≤ p) {e : List ℚ} {b : ℚ} (he : ∀ x ∈ e, IsFloat p x) (hb : IsFloat p b) (hne : e ≠ []) :
    let h := scaleAll p (2 ^ ((p + 1) / 2) + 1) e b
    (Nonoverlapping e → Nonoverlapping h ∧ SignType.sign (topNonzero h) = SignType.sign (e.sum * b)) ∧ (Nonadjacent e → Nonadjacent h) := by
  have hC := C122_scale hp he hb hne
  simp only at hC ⊢
  have hs : (2 : ℚ) ^ ((p + 1) / 2) + 1 = 2 ^ half p + 1 := by unfold half; rfl
  rw [hs] at hC ⊢
  simp only [isFloat_iff] at he hb hC
  obtain ⟨e0, es, rfl⟩ := List.exists_cons_of_ne_nil hne
  have hp0 : 0 < p := by omega
  have key : scaleAll p (2 ^ half p + 1) (e0 :: es) b =
      (e0 * b - rnd p (e0 * b)) :: ((tail p b es (rnd p (e0 * b))).1 ++ [(tail p b es (rnd p (e0 * b))).2]) := by
    simp only [scaleAll, twoProduct_eq hp (he e0 (by simp)) hb]
    rw [scaleAllLoop_tail hp hb es _ (fun x hx => he x (by simp [hx])) (rep_rnd hp0 _)]
  have main : ∀ c ≤ 1, ((e0 :: es).filter (· ≠ 0)).Pairwise (R c) → ((scaleAll p (2 ^ half p + 1) (e0 :: es) b).filter (· ≠ 0)).Pairwise (R c) := by
    intro c hc h
    rw [R_iff hC.2.1, key]
    exact (head_R hp hc hb he ((R_iff he).mp h)).1
  refine ⟨fun h => ?_, fun h => nonadj_iff.mpr (main 1 (le_refl _) (nonadj_iff.mp h))⟩
  have h1 := non_iff.mpr (main 0 (by norm_num) (non_iff.mp h))
  exact ⟨h1, by rw [← hC.1]; exact sign_topNonzero hC.2.1 h1⟩

private theorem emit_eq (x : ℚ) (l : List ℚ) : emit x (l.filter (· ≠ 0)) = (x :: l).filter (· ≠ 0) := by
  unfold emit
  split_ifs with h
  · rw [List.filter_cons_of_pos (by simpa using h)]
  · rw [List.filter_cons_of_neg (by simpa using h)]

private theorem scaleLoop_tail {p : Nat} (hp : 4 ≤ p) {b : ℚ} (hb : Rep p b) (es : List ℚ) : ∀ Q, (∀ x ∈ es, Rep p x) → Rep p Q → es.Pairwise (R 0) →
    (∀ e ∈ es, ∀ k, IsLsb k e → |Q| ≤ 2 ^ k * |b|) →
    scaleLoop p (2 ^ half p + 1) b es Q = ((tail p b es Q).1.filter (· ≠ 0), (tail p b es Q).2) := by
  have hp0 : 0 < p := by omega
  induction es with
  | nil => intro Q _ _ _ _; rfl
  | cons e es ih =>
    intro Q he hQ hpw hinv
    have h0 := he e (by simp)
    rw [List.pairwise_cons] at hpw
    have hfast : |rnd p (Q + (e * b - rnd p (e * b)))| ≤ |rnd p (e * b)| ∨ rnd p (e * b) = 0 := by
      by_cases he0 : e = 0
      · right; rw [he0, zero_mul, rnd_zero]
      · obtain ⟨k, hk⟩ := h0.lsb he0
        exact .inl (step_fast hp hb hQ hk (hinv e (by simp) k hk))
    simp only [scaleLoop, tail, twoProduct_eq hp h0 hb]
    rw [twoSum_eq (by omega) hQ (prod_err_rep hp0 h0 hb), fastTwoSum_eq hp0 (rep_rnd hp0 _) (rep_rnd hp0 _) hfast]
    simp only
    rw [ih _ (fun x hx => he x (by simp [hx])) (rep_rnd hp0 _) hpw.2, emit_eq, emit_eq]
    intro x hx k' hk'
    have hlt : |e| < 2 ^ k' := by simpa using (hpw.1 x hx).lt hk'
    by_cases he0 : e = 0
    · rw [he0, zero_mul, rnd_zero, sub_zero, add_zero, zero_add, rnd_rep hQ, rnd_rep hQ]
      exact hinv x (by simp [hx]) k' hk'
    · obtain ⟨k, hk⟩ := h0.lsb he0
      exact abs_rnd_le hp0 (by rw [mul_comm]; exact hb.abs.scale _) (step_bound hp hb hk hlt (hinv e (by simp) k hk))

/-- **C128**: `scale_expansion_zeroelim`, for any components that do not overlap: without its zeros `scale_expansion` has the same
result, the product is exact, nothing overlaps, nothing is adjacent if nothing was, and the last component has the sign of the product. -/
theorem C128_scaleZ {p : Nat} (hp : 4 ≤ p) {e : List ℚ} {b : ℚ} (he : ∀ x ∈ e, IsFloat p x) (hb : IsFloat p b) (hne : e ≠ [])
    (hn : Nonoverlapping e) :
    let h := scale p (2 ^ ((p + 1) / 2) + 1) e b
    h.sum = e.sum * b ∧ (∀ x ∈ h, IsFloat p x) ∧ ((∀ x ∈ h, x ≠ 0) ∨ h = [0]) ∧ Nonoverlapping h ∧ (Nonadjacent e → Nonadjacent h) ∧
    h.filter (· ≠ 0) = (scaleAll p (2 ^ ((p + 1) / 2) + 1) e b).filter (· ≠ 0) ∧
    SignType.sign (h.getLastD 0) = SignType.sign (e.sum * b) := by
  have hC := C122_scale hp he hb hne
  have hA := C128_scale hp he hb hne
  simp only at hC hA ⊢
  have hs : (2 : ℚ) ^ ((p + 1) / 2) + 1 = 2 ^ half p + 1 := by unfold half; rfl
  rw [hs] at hC hA ⊢
  simp only [isFloat_iff] at he hb hC ⊢
  obtain ⟨e0, es, rfl⟩ := List.exists_cons_of_ne_nil hne
  have hp0 : 0 < p := by omega
  have hr' : ∀ x ∈ es, Rep p x := fun x hx => he x (by simp [hx])
  have hpw := (R_iff he).mp (non_iff.mp hn)
  have hinv := (head_R hp (c := 0) (by norm_num) hb he hpw).2
  have key : scaleAll p (2 ^ half p + 1) (e0 :: es) b =
      (e0 * b - rnd p (e0 * b)) :: ((tail p b es (rnd p (e0 * b))).1 ++ [(tail p b es (rnd p (e0 * b))).2]) := by
    simp only [scaleAll, twoProduct_eq hp (he e0 (by simp)) hb]
    rw [scaleAllLoop_tail hp hb es _ hr' (rep_rnd hp0 _)]
  have keyZ : scale p (2 ^ half p + 1) (e0 :: es) b =
      finish (((e0 * b - rnd p (e0 * b)) :: (tail p b es (rnd p (e0 * b))).1).filter (· ≠ 0), (tail p b es (rnd p (e0 * b))).2) := by
    simp only [scale, twoProduct_eq hp (he e0 (by simp)) hb]
    rw [scaleLoop_tail hp hb es _ hr' (rep_rnd hp0 _) (List.pairwise_cons.mp hpw).2 (by simpa using hinv), emit_eq]
  obtain ⟨f1, f2, f3⟩ := finish_filter ((e0 * b - rnd p (e0 * b)) :: (tail p b es (rnd p (e0 * b))).1) (tail p b es (rnd p (e0 * b))).2
  rw [← keyZ, List.cons_append, ← key] at f1 f3
  rw [← keyZ] at f2
  have hr : ∀ x ∈ scale p (2 ^ half p + 1) (e0 :: es) b, Rep p x := fun x hx => hC.2.1 x (f3 x hx)
  have hsum : (scale p (2 ^ half p + 1) (e0 :: es) b).sum = (e0 :: es).sum * b := by rw [sum_congr f1]; exact hC.1
  have hno := (nonoverlapping_congr f1).mpr (hA.1 hn).1
  refine ⟨hsum, hr, f2, hno, fun h => ?_, f1, ?_⟩
  · have := hA.2 h
    unfold Nonadjacent at this ⊢
    rw [f1]; exact this
  · rw [last_of_nonzero f2, ← hsum]; exact sign_topNonzero hr hno

/-! ### Examples: `5` and `2^54 + 16`, and `1`, `2`, `0`, `12`, of which some are adjacent -/

private theorem exf : ∀ x ∈ ([5, 2 ^ 54 + 16] : List ℚ), IsFloat 53 x := by
  intro x hx
  simp only [List.mem_cons, List.not_mem_nil, or_false] at hx
  rcases hx with rfl | rfl
  · exact ⟨5, 0, by norm_num, by norm_num⟩
  · exact ⟨2 ^ 50 + 1, 4, by norm_num, by norm_num⟩

private theorem exb : IsFloat 53 (2 ^ 53 - 3) := ⟨2 ^ 53 - 3, 0, by norm_num, by norm_num⟩

private theorem exp2 (c : Nat) (hc : c ≤ 1) : ([5, 2 ^ 54 + 16].filter (· ≠ 0)).Pairwise (R c) := by
  rw [R_iff fun x hx => isFloat_iff.mp (exf x hx)]
  simp only [List.pairwise_cons, List.mem_singleton, forall_eq, List.not_mem_nil, false_imp_iff, implies_true, List.Pairwise.nil, and_true, R]
  refine ⟨4, 2 ^ 50 + 1, by norm_num, ?_⟩
  rcases Nat.le_one_iff_eq_zero_or_eq_one.mp hc with rfl | rfl <;> norm_num

example : scaleAll 53 (2 ^ 27 + 1) [5, 2 ^ 54 + 16] (2 ^ 53 - 3) = [1, 0, -9007199254741056, 162259276829213507506766086144000] := by decide +kernel

example : Nonadjacent (scaleAll 53 (2 ^ 27 + 1) [5, 2 ^ 54 + 16] (2 ^ 53 - 3)) :=
  (C128_scale (by norm_num) exf exb (by simp)).2 (nonadj_iff.mpr (exp2 1 (by norm_num)))

example : scale 53 (2 ^ 27 + 1) [5, 2 ^ 54 + 16] (2 ^ 53 - 3) = [1, -9007199254741056, 162259276829213507506766086144000] ∧
    Nonadjacent (scale 53 (2 ^ 27 + 1) [5, 2 ^ 54 + 16] (2 ^ 53 - 3)) :=
  ⟨by decide +kernel,
    (C128_scaleZ (by norm_num) exf exb (by simp) (non_iff.mpr (exp2 0 (by norm_num)))).2.2.2.2.1 (nonadj_iff.mpr (exp2 1 (by norm_num)))⟩

example : Nonoverlapping (scale 53 (2 ^ 27 + 1) [1, 2, 0, 12] (2 ^ 53 - 3)) := by
  refine (C128_scaleZ (by norm_num) ?_ exb (by simp) ?_).2.2.2.1
  · intro x hx
    simp only [List.mem_cons, List.not_mem_nil, or_false] at hx
    rcases hx with rfl | rfl | rfl | rfl
    · exact ⟨1, 0, by norm_num, by norm_num⟩
    · exact ⟨2, 0, by norm_num, by norm_num⟩
    · exact ⟨0, 0, by norm_num, by norm_num⟩
    · exact ⟨12, 0, by norm_num, by norm_num⟩
  · unfold Nonoverlapping
    rw [show ([1, 2, 0, 12] : List ℚ).filter (· ≠ 0) = [1, 2, 12] by decide +kernel]
    simp only [List.pairwise_cons, List.mem_cons, List.not_mem_nil, or_false, forall_eq_or_imp, forall_eq, false_imp_iff, implies_true,
      List.Pairwise.nil, and_true]
    exact ⟨⟨⟨1, 1, by norm_num, by norm_num⟩, ⟨2, 3, by norm_num, by norm_num⟩⟩, ⟨2, 3, by norm_num, by norm_num⟩⟩

end FP
end Verif
