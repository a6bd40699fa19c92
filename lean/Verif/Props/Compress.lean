import Verif.Model.Compress
import Verif.Props.ExpansionSums

/-!
# Compressing an expansion (C125)
-/
namespace Verif
namespace FP

/-- Between the digits of every component and those of all later ones there is at least one digit that neither has, up to zeros. -/
def Nonadjacent (l : List ℚ) : Prop := (l.filter (· ≠ 0)).Pairwise fun x y => Below (2 * x) y

private theorem Below.comb {x y z : ℚ} (h : Below x y) (h' : Below x z) : ∃ k, |x| < 2 ^ k ∧ Mul k y ∧ Mul k z := by
  obtain ⟨k, r, h1, h2⟩ := h
  obtain ⟨j, s, h3, h4⟩ := h'
  refine ⟨min k j, ?_, Mul.mono ⟨r, h1⟩ (min_le_left _ _), Mul.mono ⟨s, h3⟩ (min_le_right _ _)⟩
  rcases le_total k j with h | h
  · rwa [min_eq_left h]
  · rwa [min_eq_right h]

private theorem Below.of_mul {x y : ℚ} {k : Int} (h : |x| < 2 ^ k) (h' : Mul k y) : Below x y := by
  obtain ⟨r, hr⟩ := h'
  exact ⟨k, r, hr, h⟩

/-- Everything below the last digit of `y` sums up to less than that digit. -/
theorem low_sum {p : Nat} (l : List ℚ) : (∀ x ∈ l, Rep p x) → l.Pairwise (fun x y => Below y x) → ∀ y, (∀ x ∈ l, Below x y) →
    ∀ k, IsLsb k y → |l.sum| < 2 ^ k := by
  induction l with
  | nil => intro _ _ y _ k _; simpa using two_zpow_pos k
  | cons x l ih =>
    intro hr hp y hy k hk
    rw [List.pairwise_cons] at hp
    have ih := ih (fun z hz => hr z (by simp [hz])) hp.2
    rw [List.sum_cons]
    by_cases hx : x = 0
    · rw [hx, zero_add]; exact ih y (fun z hz => hy z (by simp [hz])) k hk
    · obtain ⟨j, r, hj, hxj⟩ := hy x (by simp)
      have hxk : |x| < 2 ^ k := hxj.trans_le (two_zpow_le (hk.max ⟨r, hj⟩))
      obtain ⟨i, hi⟩ := (hr x (by simp)).lsb hx
      have h1 := ih x hp.1 i hi
      have h2 : i ≤ k := by
        have := lt_of_two_zpow (hi.le_abs.trans_lt hxk)
        omega
      have h3 := Mul.le_sub hi.mul.abs (Mul.pow h2) hxk
      have h4 := abs_add_le x l.sum
      linarith

/-! ### The components between the loops -/

/-- `T` is the sum of what is below. -/
private def Tower (p : Nat) : ℚ → List ℚ → Prop
  | _, [] => True
  | T, h :: hs => h ≠ 0 ∧ (∀ x ∈ hs, Mul (grid p h) x) ∧ |T| < 2 ^ grid p h ∧ Tower p (T + h) hs

private theorem Tower.mul {p : Nat} {T h : ℚ} {hs : List ℚ} (t : Tower p T (h :: hs)) (hr : ∀ x ∈ h :: hs, Rep p x) : ∀ x ∈ h :: hs, Mul (grid p h) x := by
  intro x hx
  rw [List.mem_cons] at hx
  rcases hx with rfl | hx
  · exact (hr x (by simp)).grid
  · exact t.2.1 x hx

/-- If a tower stands on something as large as `2 ^ k`, all its components are multiples of `2 ^ (k + 1)`. -/
private theorem Tower.mul_of_le {p : Nat} {T : ℚ} {hs : List ℚ} (t : Tower p T hs) (hr : ∀ x ∈ hs, Rep p x) {k : Int} (hk : 2 ^ k ≤ |T|) :
    ∀ x ∈ hs, Mul (k + 1) x := by
  cases hs with
  | nil => simp
  | cons h hs =>
    have := lt_of_two_zpow (hk.trans_lt t.2.2.1)
    exact fun x hx => (t.mul hr x hx).mono (by omega)

private theorem Tower.lt_of_le {p : Nat} {T h : ℚ} {hs : List ℚ} (t : Tower p T (h :: hs)) {k : Int} (hk : 2 ^ k ≤ |T|) : k < grid p h :=
  lt_of_two_zpow (hk.trans_lt t.2.2.1)

/-! ### The first loop -/

private theorem down_ok {p : Nat} (hp : 3 ≤ p) (es : List ℚ) : ∀ Q g, (∀ x ∈ es, Rep p x) → es.Pairwise (fun x y => Below y x) → Rep p Q →
    (∀ x ∈ es, Below x Q) → (∀ x ∈ g, Rep p x) → Tower p (Q + es.sum) g → (Q = 0 → g = []) →
    let d := compressDown p es Q g
    Rep p d.1 ∧ (∀ x ∈ d.2, Rep p x) ∧ Tower p d.1 d.2 ∧ d.1 + d.2.sum = Q + es.sum + g.sum ∧ d.2.length ≤ es.length + g.length := by
  have hp0 : 0 < p := by omega
  induction es with
  | nil => intro Q g _ _ hQ _ hg ht _; exact ⟨hQ, hg, by simpa [compressDown] using ht, by simp [compressDown], by simp [compressDown]⟩
  | cons e es ih =>
    intro Q g hes hpw hQ hb hg ht h0
    have he := hes e (by simp)
    have hes' : ∀ x ∈ es, Rep p x := fun x hx => hes x (by simp [hx])
    rw [List.pairwise_cons] at hpw
    have hle : |e| ≤ |Q| ∨ Q = 0 := by
      by_cases hz : Q = 0
      · exact Or.inr hz
      · obtain ⟨k, r, hk, hek⟩ := hb e (by simp)
        exact Or.inl (hek.le.trans (Mul.le_abs ⟨r, hk⟩ hz))
    have hf := fastTwoSum_eq hp0 hQ he hle
    simp only [compressDown, hf, List.length_cons]
    split_ifs with hq
    · -- a component is written
      have hb' : ∀ x ∈ es, Below x (Q + e - rnd p (Q + e)) := by
        intro x hx
        obtain ⟨k, k1, k2, k3⟩ := (hb x (by simp [hx])).comb (hpw.1 x hx)
        exact Below.of_mul k1 (sum_err_mul (k2.add k3))
      have hqr := sum_err_rep hp0 hQ he
      obtain ⟨j, hj⟩ := hqr.lsb hq
      have hlow := low_sum es hes' hpw.2 _ hb' j hj
      have herr := rnd_err p (Q + e)
      rw [abs_sub_comm] at herr
      have hs0 : Q + e ≠ 0 := by
        intro hc
        rw [hc, rnd_zero] at hq
        exact hq (by ring)
      have hh0 : rnd p (Q + e) ≠ 0 := fun hc => hs0 ((rnd_eq_zero hp0).mp hc)
      have hG : grid p (Q + e) ≤ grid p (rnd p (Q + e)) := by
        apply le_grid
        exact le_abs_rnd hp0 (Rep.pow p hp0 _) (grid_spec p hs0).1
      have hT : |Q + e - rnd p (Q + e) + es.sum| < 2 ^ grid p (rnd p (Q + e)) := by
        have h1 := abs_add_le (Q + e - rnd p (Q + e)) es.sum
        have h2 := hj.le_abs
        have h3 := two_zpow_le hG
        linarith
      have hsum : Q + e - rnd p (Q + e) + es.sum + rnd p (Q + e) = Q + (e :: es).sum := by rw [List.sum_cons]; ring
      have htow : Tower p (Q + e - rnd p (Q + e) + es.sum) (rnd p (Q + e) :: g) := by
        refine ⟨hh0, ?_, hT, by rwa [hsum]⟩
        have hbig : (2 : ℚ) ^ grid p (rnd p (Q + e)) ≤ |Q + (e :: es).sum| := by
          rw [← hsum]
          have h1 := (grid_spec p hh0).1
          have h2 : (2 : ℚ) ^ (grid p (rnd p (Q + e)) + 1) ≤ 2 ^ (grid p (rnd p (Q + e)) + p - 1) := two_zpow_le (by omega)
          rw [two_zpow_succ] at h2
          have h3 := abs_sub_abs_le_abs_sub (rnd p (Q + e)) (-(Q + e - rnd p (Q + e) + es.sum))
          rw [abs_neg, sub_neg_eq_add, add_comm (rnd p (Q + e))] at h3
          linarith
        exact fun x hx => (ht.mul_of_le hg hbig x hx).mono (by omega)
      obtain ⟨i1, i2, i3, i4, i5⟩ := ih _ (rnd p (Q + e) :: g) hes' hpw.2 hqr hb' (by
        intro x hx
        rw [List.mem_cons] at hx
        rcases hx with rfl | hx
        · exact rep_rnd hp0 _
        · exact hg x hx) htow (fun hc => absurd hc hq)
      refine ⟨i1, i2, i3, ?_, by rw [List.length_cons] at i5; omega⟩
      rw [i4, List.sum_cons, List.sum_cons]; ring
    · -- the sum is exact
      have hex : rnd p (Q + e) = Q + e := by
        have : Q + e - rnd p (Q + e) = 0 := by simpa using hq
        linarith
      rw [hex]
      obtain ⟨i1, i2, i3, i4, i5⟩ := ih (Q + e) g hes' hpw.2 (by rw [← hex]; exact rep_rnd hp0 _) (by
        intro x hx
        obtain ⟨k, k1, k2, k3⟩ := (hb x (by simp [hx])).comb (hpw.1 x hx)
        exact Below.of_mul k1 (k2.add k3)) hg (by rwa [List.sum_cons, ← add_assoc] at ht) (by
        intro hc
        apply h0
        by_contra hz
        obtain ⟨k, r, hk, hek⟩ := hb e (by simp)
        have h1 := Mul.le_abs ⟨r, hk⟩ hz
        have h2 : |Q| = |e| := by rw [show Q = -e by linarith, abs_neg]
        linarith)
      refine ⟨i1, i2, i3, ?_, by omega⟩
      rw [i4, List.sum_cons]; ring

/-! ### The second loop -/

private theorem up_mul {p : Nat} {k : Int} (hs : List ℚ) : ∀ Q, Mul k Q → (∀ x ∈ hs, Mul k x) → ∀ x ∈ compressUp p hs Q, Mul k x := by
  induction hs with
  | nil => intro Q hQ _ x hx; simp only [compressUp, List.mem_singleton] at hx; rwa [hx]
  | cons h hs ih =>
    intro Q hQ hm x hx
    have hh := hm h (by simp)
    have hs' : ∀ x ∈ hs, Mul k x := fun y hy => hm y (by simp [hy])
    have h1 : Mul k (fastTwoSum p h Q).1 := rnd_mul (hh.add hQ)
    have h2 : Mul k (fastTwoSum p h Q).2 := rnd_mul (hQ.sub (rnd_mul (h1.sub hh)))
    simp only [compressUp] at hx
    split_ifs at hx
    · rw [List.mem_cons] at hx
      rcases hx with rfl | hx
      · exact h2
      · exact ih _ h1 hs' x hx
    · exact ih _ h1 hs' x hx

/-- `S` is the sum of the components already written. -/
private theorem up_ok {p : Nat} (hp : 3 ≤ p) (hs : List ℚ) : ∀ Q S, Rep p Q → (∀ x ∈ hs, Rep p x) → Tower p (S + Q) hs →
    (S = 0 ∨ |S| < 2 ^ grid p Q ∧ Q ≠ 0 ∧ ∃ k, |S| < 2 ^ k ∧ Mul k Q ∧ ∀ h ∈ hs.head?, k < grid p h) →
    let l := compressUp p hs Q
    l.sum = Q + hs.sum ∧ (∀ x ∈ l, Rep p x) ∧ l.Pairwise (fun x y => Below (2 * x) y) ∧ (∀ x ∈ l.dropLast, x ≠ 0) ∧
    l.length ≤ hs.length + 1 ∧ (hs ≠ [] → l.getLastD 0 ≠ 0) ∧
    (S + Q + hs.sum = l.getLastD 0 ∨ l.getLastD 0 ≠ 0 ∧ |S + Q + hs.sum - l.getLastD 0| < 2 ^ grid p (l.getLastD 0)) := by
  have hp0 : 0 < p := by omega
  induction hs with
  | nil =>
    intro Q S hQ _ _ hS
    refine ⟨by simp [compressUp], by simpa [compressUp] using hQ, by simp [compressUp], by simp [compressUp], by simp [compressUp], by simp, ?_⟩
    rcases hS with rfl | ⟨h1, h2, _⟩
    · left; simp [compressUp]
    · right; simpa [compressUp] using ⟨h2, h1⟩
  | cons h hs ih =>
    intro Q S hQ hr ht hS
    have hh := hr h (by simp)
    have hr' : ∀ x ∈ hs, Rep p x := fun x hx => hr x (by simp [hx])
    obtain ⟨t1, t2, t3, t4⟩ := ht
    have hgh := (grid_spec p t1).1
    have hg2 : (2 : ℚ) ^ (grid p h + 2) ≤ 2 ^ (grid p h + p - 1) := two_zpow_le (by omega)
    rw [show grid p h + 2 = grid p h + 1 + 1 by ring, two_zpow_succ, two_zpow_succ] at hg2
    have hgp := two_zpow_pos (grid p h)
    have hQh : |Q| ≤ 2 ^ grid p h := by
      rcases hS with rfl | ⟨_, _, k, k1, k2, k3⟩
      · rw [zero_add] at t3; exact t3.le
      · have hk : k < grid p h := k3 h (by simp)
        by_contra hc
        have h1 := Mul.le_sub (Mul.pow hk.le) k2.abs (not_le.mp hc)
        have h2 := abs_sub_abs_le_abs_sub Q (-S)
        rw [abs_neg, sub_neg_eq_add, add_comm Q] at h2
        linarith
    have hf := fastTwoSum_eq hp0 hh hQ (Or.inl (by linarith))
    have hs0 : h + Q ≠ 0 := by
      intro hc
      have : |h| = |Q| := by rw [show h = -Q by linarith, abs_neg]
      linarith
    have hn0 : rnd p (h + Q) ≠ 0 := fun hc => hs0 ((rnd_eq_zero hp0).mp hc)
    have hG : grid p (h + Q) ≤ grid p (rnd p (h + Q)) := by
      apply le_grid
      exact le_abs_rnd hp0 (Rep.pow p hp0 _) (grid_spec p hs0).1
    have hnr := rep_rnd hp0 (h + Q)
    simp only [compressUp, hf]
    split_ifs with hq
    · have herr := rnd_err p (h + Q)
      rw [abs_sub_comm] at herr
      have hSq : |S + (h + Q - rnd p (h + Q))| < 2 * |h + Q - rnd p (h + Q)| := by
        have h1 := abs_add_le S (h + Q - rnd p (h + Q))
        have h2 := abs_pos.mpr hq
        rcases hS with rfl | ⟨_, _, k, k1, k2, k3⟩
        · rw [zero_add]; linarith
        · have hk : k < grid p h := k3 h (by simp)
          have h3 := Mul.le_abs (sum_err_mul (p := p) (((hh.grid).mono hk.le).add k2)) hq
          linarith
      have hSG : |S + (h + Q - rnd p (h + Q))| < 2 ^ grid p (h + Q) := by linarith
      have hTe : S + (h + Q - rnd p (h + Q)) + rnd p (h + Q) = S + Q + h := by ring
      have hbig : (2 : ℚ) ^ (grid p (h + Q) + 1) ≤ |S + Q + h| := by
        rw [← hTe]
        have h1 := le_abs_rnd hp0 (Rep.pow p hp0 _) (grid_spec p hs0).1
        have h2 : (2 : ℚ) ^ (grid p (h + Q) + 2) ≤ 2 ^ (grid p (h + Q) + p - 1) := two_zpow_le (by omega)
        rw [show grid p (h + Q) + 2 = grid p (h + Q) + 1 + 1 by ring, two_zpow_succ, two_zpow_succ] at h2
        rw [two_zpow_succ]
        have h3 := abs_sub_abs_le_abs_sub (rnd p (h + Q)) (-(S + (h + Q - rnd p (h + Q))))
        rw [abs_neg, sub_neg_eq_add, add_comm (rnd p (h + Q))] at h3
        have := two_zpow_pos (grid p (h + Q))
        linarith
      obtain ⟨i1, i2, i3, i4, i5, i6, i7⟩ := ih (rnd p (h + Q)) (S + (h + Q - rnd p (h + Q))) hnr hr' (by rwa [hTe])
        (Or.inr ⟨hSG.trans_le (two_zpow_le hG), hn0, grid p (h + Q), hSG, rnd_mul_grid p _, by
          intro h' hh'
          cases hs with
          | nil => simp at hh'
          | cons y ys =>
            simp only [List.head?_cons, Option.mem_def, Option.some.injEq] at hh'
            subst hh'
            have := t4.lt_of_le hbig
            omega⟩)
      have hne : compressUp p hs (rnd p (h + Q)) ≠ [] := by
        cases hs with
        | nil => simp [compressUp]
        | cons y ys =>
          intro hc
          have := i6 (by simp)
          rw [hc] at this
          exact this rfl
      have hl : ((h + Q - rnd p (h + Q)) :: compressUp p hs (rnd p (h + Q))).getLastD 0 = (compressUp p hs (rnd p (h + Q))).getLastD 0 := by
        obtain ⟨y, ys, hy⟩ := List.exists_cons_of_ne_nil hne
        rw [hy]; simp
      have hmul : ∀ k, k ≤ grid p (h + Q) + 1 → ∀ x ∈ hs, Mul k x := fun k hk x hx => (t4.mul_of_le hr' hbig x hx).mono (by omega)
      rw [hl]
      refine ⟨?_, ?_, ?_, ?_, ?_, ?_, ?_⟩
      · rw [List.sum_cons, i1, List.sum_cons]; ring
      · intro x hx
        rw [List.mem_cons] at hx
        rcases hx with rfl | hx
        · exact sum_err_rep hp0 hh hQ
        · exact i2 x hx
      · rw [List.pairwise_cons]
        refine ⟨fun y hy => ?_, i3⟩
        rcases herr.lt_or_eq with hlt | heq
        · refine Below.of_mul (k := grid p (h + Q)) ?_ (up_mul hs _ (rnd_mul_grid p _) (hmul _ (by omega)) y hy)
          rw [abs_mul, abs_two]; linarith
        · refine Below.of_mul (k := grid p (h + Q) + 1) ?_ (up_mul hs _ (rnd_tie p _ (by rw [abs_sub_comm]; exact heq)) (hmul _ le_rfl) y hy)
          rw [abs_mul, abs_two, two_zpow_succ]
          have := two_zpow_pos (grid p (h + Q))
          linarith
      · obtain ⟨y, ys, hy⟩ := List.exists_cons_of_ne_nil hne
        rw [hy] at i4 ⊢
        rw [List.dropLast_cons_of_ne_nil (by simp)]
        intro x hx
        rw [List.mem_cons] at hx
        rcases hx with rfl | hx
        · exact hq
        · exact i4 x hx
      · rw [List.length_cons, List.length_cons]; omega
      · intro _
        cases hs with
        | nil => simpa [compressUp] using hn0
        | cons y ys => exact i6 (by simp)
      · rw [hTe] at i7
        rw [List.sum_cons, ← add_assoc]
        exact i7
    · have hex : rnd p (h + Q) = h + Q := by
        have : h + Q - rnd p (h + Q) = 0 := by simpa using hq
        linarith
      rw [hex] at hnr hn0 ⊢
      obtain ⟨i1, i2, i3, i4, i5, i6, i7⟩ := ih (h + Q) S hnr hr' (by rw [show S + (h + Q) = S + Q + h by ring]; exact t4) (by
        rcases hS with rfl | ⟨_, _, k, k1, k2, k3⟩
        · exact Or.inl rfl
        · right
          have hk : k < grid p h := k3 h (by simp)
          have hQn : grid p h - 1 ≤ grid p (h + Q) := by
            apply le_grid
            have h1 := abs_sub_abs_le_abs_sub h (-Q)
            rw [abs_neg, sub_neg_eq_add] at h1
            have h2 : (2 : ℚ) ^ (grid p h + p - 1) = 2 * 2 ^ (grid p h - 1 + p - 1) := by rw [← two_zpow_succ]; congr 1; ring
            have h3 : (2 : ℚ) ^ grid p h ≤ 2 ^ (grid p h - 1 + p - 1) := two_zpow_le (by omega)
            linarith
          refine ⟨k1.trans_le (two_zpow_le (by omega)), hn0, k, k1, ((hh.grid).mono hk.le).add k2, ?_⟩
          intro h' hh'
          cases hs with
          | nil => simp at hh'
          | cons y ys =>
            simp only [List.head?_cons, Option.mem_def, Option.some.injEq] at hh'
            subst hh'
            have hbig : (2 : ℚ) ^ grid p h ≤ |S + Q + h| := by
              have h3 := abs_sub_abs_le_abs_sub h (-(S + Q))
              rw [abs_neg, sub_neg_eq_add, add_comm h] at h3
              linarith
            have := t4.lt_of_le hbig
            omega)
      refine ⟨?_, i2, i3, i4, ?_, ?_, ?_⟩
      · rw [i1, List.sum_cons]; ring
      · rw [List.length_cons]; omega
      · intro _
        cases hs with
        | nil => simpa [compressUp] using hn0
        | cons y ys => exact i6 (by simp)
      · rw [List.sum_cons, show S + Q + (h + hs.sum) = S + (h + Q) + hs.sum by ring]
        exact i7

/-! ### The function -/

/-- `compress`: if the components of the argument do not overlap, those of the result are floating point numbers, not more than before, with
the same sum, not even adjacent, and without zeros unless the result is the single component 0. The last one alone is the sum up to the relative
error of the last digit. -/
theorem C125_compress {p : Nat} (hp : 3 ≤ p) {e : List ℚ} (he : ∀ x ∈ e, IsFloat p x) (hn : Nonoverlapping e) (hne : e ≠ []) :
    ∃ h, compress p e = .done h ∧ h.sum = e.sum ∧ (∀ x ∈ h, IsFloat p x) ∧ Nonadjacent h ∧ h.length ≤ e.length ∧
    ((∀ x ∈ h, x ≠ 0) ∨ h = [0]) ∧ |e.sum - h.getLastD 0| ≤ 2 ^ (1 - p : Int) * |h.getLastD 0| := by
  simp only [isFloat_iff] at he ⊢
  obtain ⟨Q, es, hQ⟩ := List.exists_cons_of_ne_nil (List.reverse_ne_nil_iff.mpr hne)
  have hpw : e.reverse.Pairwise fun x y => Below y x := by
    rw [List.pairwise_reverse]
    exact (pairwise_iff he).mp hn
  rw [hQ, List.pairwise_cons] at hpw
  have hr : ∀ x ∈ Q :: es, Rep p x := fun x hx => he x (by rw [← List.mem_reverse, hQ]; exact hx)
  have hsum : e.sum = Q + es.sum := by rw [← List.sum_reverse, hQ, List.sum_cons]
  have hlen : e.length = es.length + 1 := by rw [← List.length_reverse, hQ, List.length_cons]
  obtain ⟨d1, d2, d3, d4, d5⟩ := down_ok hp es Q [] (fun x hx => hr x (by simp [hx])) hpw.2 (hr Q (by simp)) hpw.1 (by simp) trivial (fun _ => rfl)
  obtain ⟨u1, u2, u3, u4, u5, u6, u7⟩ := up_ok hp (compressDown p es Q []).2 (compressDown p es Q []).1 0 d1 d2 (by rwa [zero_add]) (Or.inl rfl)
  rw [zero_add] at u7
  rw [List.sum_nil, add_zero] at d4
  refine ⟨_, by rw [compress, hQ], by rw [u1, d4, hsum], u2, u3.filter _, by rw [hlen]; simp at d5; omega, ?_, ?_⟩
  · generalize compressDown p es Q [] = d at *
    rcases hd : d.2 with _ | ⟨y, ys⟩
    · simp only [compressUp, List.mem_singleton, forall_eq]
      by_cases h0 : d.1 = 0
      · right; rw [h0]
      · exact Or.inl h0
    · rw [← hd]
      left
      have h6 := u6 (by rw [hd]; simp)
      rcases List.eq_nil_or_concat (compressUp p d.2 d.1) with hc | ⟨l, z, hc⟩
      · rw [hc]; simp
      · rw [List.concat_eq_append] at hc
        rw [hc] at u4 h6 ⊢
        rw [List.dropLast_concat] at u4
        simp only [List.getLastD_concat] at h6
        intro x hx
        rw [List.mem_append, List.mem_singleton] at hx
        rcases hx with hx | rfl
        · exact u4 x hx
        · exact h6
  · rw [hsum, ← d4]
    rcases u7 with h | ⟨h, h'⟩
    · rw [h, sub_self, abs_zero]; positivity
    · refine h'.le.trans ?_
      have := (grid_spec p h).1
      calc (2 : ℚ) ^ grid p ((compressUp p (compressDown p es Q []).2 (compressDown p es Q []).1).getLastD 0)
          = 2 ^ (1 - p : Int) * 2 ^ (grid p ((compressUp p (compressDown p es Q []).2 (compressDown p es Q []).1).getLastD 0) + p - 1) := by
            rw [← zpow_add₀ (by norm_num)]; congr 1; ring
        _ ≤ _ := mul_le_mul_of_nonneg_left this (two_zpow_pos _).le

/-! ### Examples -/

/-- Five components become two. -/
example : compress 53 [1, 2, 4, 2 ^ 60, 2 ^ 61] = .done [7, 2 ^ 60 + 2 ^ 61] := by decide +kernel

/-- Adjacent components, of which the lower one rounds the upper one up. -/
example : compress 53 [1, 2, 2 ^ 54] = .done [-1, 2 ^ 54 + 4] := by decide +kernel

example : ∃ h, compress 53 [1, 2, 2 ^ 54] = .done h ∧ h.sum = 2 ^ 54 + 3 ∧ Nonadjacent h := by
  have hf : ∀ x ∈ ([1, 2, 2 ^ 54] : List ℚ), IsFloat 53 x := by
    intro x hx
    simp only [List.mem_cons, List.not_mem_nil, or_false] at hx
    rcases hx with rfl | rfl | rfl
    · exact ⟨1, 0, by norm_num, by norm_num⟩
    · exact ⟨1, 1, by norm_num, by norm_num⟩
    · exact ⟨1, 54, by norm_num, by norm_num⟩
  have hn : Nonoverlapping [1, 2, 2 ^ 54] := by
    rw [pairwise_iff (p := 53) fun x hx => isFloat_iff.mp (hf x hx)]
    simp only [List.pairwise_cons, List.mem_cons, List.not_mem_nil, or_false, forall_eq_or_imp, forall_eq, List.Pairwise.nil, and_true,
      false_imp_iff, implies_true]
    exact ⟨⟨⟨1, 1, by norm_num, by norm_num⟩, ⟨54, 1, by norm_num, by norm_num⟩⟩, ⟨54, 1, by norm_num, by norm_num⟩⟩
  obtain ⟨h, h1, h2, _, h3, _⟩ := C125_compress (p := 53) (by norm_num) hf hn (by simp)
  exact ⟨h, h1, h2.trans (by norm_num), h3⟩

end FP
end Verif
