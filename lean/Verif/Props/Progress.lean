import Verif.Model.Progress
import Mathlib.Algebra.Order.Floor.Semifield
import Mathlib.Tactic.Linarith
import Mathlib.Tactic.FieldSimp
import Mathlib.Tactic.Ring
import Mathlib.Tactic.NormNum
import Mathlib.Tactic.Positivity

/-!
# C139: the progress bar is full when the expected count is reached

What is assumed of rounding: it is monotone and does not change the integers up to 2^53.
-/
namespace Verif
namespace Progress

/-- Monotone rounding that represents the integers up to 2^53. -/
def Rounding (fl : ℚ → ℚ) : Prop :=
  (∀ x y, x ≤ y → fl x ≤ fl y) ∧ ∀ n : Nat, n ≤ 2 ^ 53 → fl n = n

theorem stars_spec (need : Nat) (tic : Nat) (out : List Char) :
    stars need tic out = (max (tic + 1) need, out ++ List.replicate (max (tic + 1) need - tic) '*') := by
  generalize hk : need - tic = k
  induction k generalizing tic out with
  | zero =>
    rw [stars, if_neg (by omega)]
    have e1 : max (tic + 1) need = tic + 1 := by omega
    simp [e1]
  | succ k ih =>
    rw [stars]
    by_cases h : tic + 1 < need
    · rw [if_pos h, ih (tic + 1) _ (by omega)]
      have e1 : max (tic + 1 + 1) need = max (tic + 1) need := by omega
      have e2 : max (tic + 1) need - tic = (max (tic + 1) need - (tic + 1)) + 1 := by omega
      rw [e1, e2, List.replicate_succ]
      simp
    · rw [if_neg h]
      have e1 : max (tic + 1) need = tic + 1 := by omega
      simp [e1]

theorem needed_le {fl : ℚ → ℚ} (h : Rounding fl) {c E : Nat} (hc : c ≤ E) (hE : 0 < E) :
    needed fl c E ≤ 50 := by
  obtain ⟨hm, hi⟩ := h
  have hEq : (0 : ℚ) < E := by exact_mod_cast hE
  have h1 : (c : ℚ) / E ≤ 1 := by
    rw [div_le_one hEq]; exact_mod_cast hc
  have h2 : fl ((c : ℚ) / E) ≤ 1 := by
    have := hm _ _ h1
    have h1' := hi 1 (by norm_num)
    simp only [Nat.cast_one] at h1'
    rwa [h1'] at this
  have h3 : fl (fl ((c : ℚ) / E) * 50) ≤ 50 := by
    have h50 := hi 50 (by norm_num)
    have := hm (fl ((c : ℚ) / E) * 50) ((50 : Nat) : ℚ) (by push_cast; linarith)
    rw [h50] at this
    exact_mod_cast this
  exact_mod_cast Nat.floor_le_of_le (n := 50) (by exact_mod_cast h3)

theorem nextTic_full {fl : ℚ → ℚ} (h : Rounding fl) {E : Nat} (hE : E ≤ 2 ^ 53) : nextTic fl 50 E = E := by
  obtain ⟨_, hi⟩ := h
  have h1' := hi 1 (by norm_num)
  simp only [Nat.cast_one] at h1'
  unfold nextTic
  have e : ((50 : Nat) : ℚ) / 50 = 1 := by norm_num
  rw [e, h1', one_mul, hi E hE]
  exact Nat.floor_natCast E

theorem nextTic_le {fl : ℚ → ℚ} (h : Rounding fl) {t E : Nat} (ht : t ≤ 50) (hE : E ≤ 2 ^ 53) :
    nextTic fl t E ≤ E := by
  refine le_trans ?_ (le_of_eq (nextTic_full h hE))
  obtain ⟨hm, _⟩ := h
  unfold nextTic
  refine Nat.floor_le_floor (hm _ _ ?_)
  have hE0 : (0 : ℚ) ≤ E := Nat.cast_nonneg E
  have htq : (t : ℚ) ≤ (50 : Nat) := by exact_mod_cast ht
  have h3 : (t : ℚ) / 50 ≤ ((50 : Nat) : ℚ) / 50 :=
    div_le_div_of_nonneg_right htq (by norm_num)
  exact mul_le_mul_of_nonneg_right (hm _ _ h3) hE0

/-- While the bar is not full. -/
def Inv (fl : ℚ → ℚ) (E : Nat) (s : St) : Prop :=
  s.expected = E ∧ s.tic ≤ 50 ∧ s.next ≤ E ∧ (s.tic = 50 → s.next = E) ∧ s.out = List.replicate s.tic '*'

theorem inv_add {fl : ℚ → ℚ} (h : Rounding fl) {E : Nat} (hE0 : 0 < E) (hE : E ≤ 2 ^ 53) {s : St}
    (hs : Inv fl E s) {inc : Nat} (hc : s.count + inc < E) : Inv fl E (add fl s inc) := by
  obtain ⟨h1, h2, h3, h4, h5⟩ := hs
  unfold add
  simp only
  by_cases ht : s.next ≤ s.count + inc
  · rw [if_pos ht]
    unfold displayTic
    simp only [stars_spec, h1]
    have hn := needed_le h (le_of_lt hc) hE0
    have hlt : s.tic < 50 := by
      by_contra hge
      have := h4 (by omega)
      omega
    have hm : max (s.tic + 1) (needed fl (s.count + inc) E) ≤ 50 := by omega
    refine ⟨rfl, hm, nextTic_le h hm hE, ?_, ?_⟩
    · intro e
      simp only at e ⊢
      rw [e]
      exact nextTic_full h hE
    · simp only
      rw [if_neg (by omega), h5, List.replicate_append_replicate]
      congr 1
      omega
  · rw [if_neg ht]
    exact ⟨h1, h2, h3, h4, h5⟩

theorem count_add (fl : ℚ → ℚ) (s : St) (inc : Nat) :
    (add fl s inc).count = s.count + inc ∧ (add fl s inc).expected = s.expected := by
  unfold add displayTic
  simp only
  split_ifs <;> simp

theorem inv_run {fl : ℚ → ℚ} (h : Rounding fl) {E : Nat} (hE0 : 0 < E) (hE : E ≤ 2 ^ 53) :
    ∀ (incs : List Nat) (s : St), Inv fl E s → s.count + incs.sum < E →
      Inv fl E (incs.foldl (add fl) s) ∧ (incs.foldl (add fl) s).count = s.count + incs.sum := by
  intro incs
  induction incs with
  | nil => intro s hs _; exact ⟨hs, by simp⟩
  | cons i is ih =>
    intro s hs hc
    rw [List.sum_cons] at hc
    have := ih (add fl s i) (inv_add h hE0 hE hs (by omega)) (by rw [(count_add fl s i).1]; omega)
    rw [(count_add fl s i).1] at this
    rw [List.foldl_cons, List.sum_cons]
    exact ⟨this.1, by rw [this.2]; omega⟩

theorem inv_restart (fl : ℚ → ℚ) {E : Nat} (hE0 : 0 < E) : Inv fl E (restart E) := by
  refine ⟨by simp [restart]; omega, by simp [restart], by simp [restart], ?_, by simp [restart]⟩
  intro h
  simp [restart] at h

/-- **C139 (partial).** Whatever the increments are and however `double` rounds: when the count reaches the expected count,
the bar has exactly 51 stars, as many as the scale has characters, and its line is ended; before that it has at most 50
stars and no end of line. What is missing: increments that go beyond the expected count (`C139_beyond_violated`). -/
theorem C139_full_partial (fl : ℚ → ℚ) (hfl : Rounding fl) (E : Nat) (hE0 : 0 < E) (hE : E ≤ 2 ^ 53)
    (incs : List Nat) (hpos : ∀ i ∈ incs, 0 < i) :
    (incs.sum = E → (run fl E incs).out = List.replicate 51 '*' ++ ['\n']) ∧
      (incs.sum < E → ∃ n ≤ 50, (run fl E incs).out = List.replicate n '*') := by
  constructor
  · intro hsum
    rcases List.eq_nil_or_concat incs with rfl | ⟨is, i, rfl⟩
    · simp at hsum; omega
    · simp only [List.concat_eq_append] at *
      have hi : 0 < i := hpos i (by simp)
      rw [List.sum_append] at hsum
      simp only [List.sum_cons, List.sum_nil, Nat.add_zero] at hsum
      have hr0 : (restart E).count = 0 := rfl
      obtain ⟨⟨h1, h2, h3, h4, h5⟩, hcount⟩ := inv_run hfl hE0 hE is (restart E) (inv_restart fl hE0)
        (by rw [hr0]; omega)
      rw [hr0, Nat.zero_add] at hcount
      unfold run
      rw [List.foldl_append, List.foldl_cons, List.foldl_nil]
      generalize is.foldl (add fl) (restart E) = s at *
      unfold add
      simp only [hcount, hsum]
      rw [if_pos h3]
      unfold displayTic
      simp only [stars_spec, h1, if_true]
      have hn := needed_le hfl (le_refl E) hE0
      have hn2 : needed fl E E = 50 := by
        obtain ⟨_, hi⟩ := hfl
        have h1' := hi 1 (by norm_num)
        have h50 := hi 50 (by norm_num)
        simp only [Nat.cast_one] at h1'
        unfold needed
        have hq : (E : ℚ) ≠ 0 := by exact_mod_cast (by omega : E ≠ 0)
        rw [div_self hq, h1', one_mul]
        have : (50 : ℚ) = ((50 : Nat) : ℚ) := by norm_num
        rw [this, h50]
        exact Nat.floor_natCast 50
      rw [hn2, h5]
      by_cases ht : s.tic = 50
      · rw [ht]
        simp only [List.replicate_append_replicate]
        rfl
      · have hm : max (s.tic + 1) 50 = 50 := by omega
        rw [hm, if_pos (by norm_num), List.replicate_append_replicate]
        have : s.tic + (50 - s.tic) = 50 := by omega
        rw [this]
        rfl
  · intro hlt
    obtain ⟨⟨_, h2, _, _, h5⟩, _⟩ := inv_run hfl hE0 hE incs (restart E) (inv_restart fl hE0)
      (by show 0 + incs.sum < E; omega)
    exact ⟨_, h2, h5⟩

/-- In exact arithmetic the roundings are divisions. -/
theorem needed_exact (c E : Nat) : needed id c E = 50 * c / E := by
  unfold needed
  simp only [id]
  have : (c : ℚ) / E * 50 = ((50 * c : Nat) : ℚ) / (E : ℚ) := by push_cast; ring
  rw [this, Nat.floor_div_eq_div]

theorem nextTic_exact (t E : Nat) : nextTic id t E = t * E / 50 := by
  unfold nextTic
  simp only [id]
  have : (t : ℚ) / 50 * E = ((t * E : Nat) : ℚ) / ((50 : Nat) : ℚ) := by push_cast; ring
  rw [this, Nat.floor_div_eq_div]

/-- **C139.** In exact arithmetic the length of the bar follows the progress: at least the share of 50 stars that
corresponds to the count, rounded down, and less than one star more than the share of the next count. -/
theorem C139_share (E : Nat) (hE0 : 0 < E) (hE : E ≤ 2 ^ 53) (incs : List Nat) (hlt : incs.sum < E) :
    ∃ n, (run id E incs).out = List.replicate n '*' ∧ 50 * incs.sum / E ≤ n ∧ n * E < 50 * (incs.sum + 1) + E := by
  have hid : Rounding id := ⟨fun _ _ h => h, fun _ _ => rfl⟩
  have key : ∀ (is : List Nat) (s : St), Inv id E s → s.next = s.tic * E / 50 → 50 * s.count / E ≤ s.tic →
      s.tic * E < 50 * (s.count + 1) + E → s.count + is.sum < E →
      ∃ n, (is.foldl (add id) s).out = List.replicate n '*' ∧ 50 * (s.count + is.sum) / E ≤ n ∧
        n * E < 50 * (s.count + is.sum + 1) + E := by
    intro is
    induction is with
    | nil => intro s hs _ h2 h3 _; exact ⟨s.tic, hs.2.2.2.2, by simpa using h2, by simpa using h3⟩
    | cons i is ih =>
      intro s hs hn h2 h3 hc
      rw [List.sum_cons] at hc ⊢
      have hcnt := (count_add id s i).1
      have hinv := inv_add hid hE0 hE hs (inc := i) (by omega)
      obtain ⟨h1, -, -, -, -⟩ := hs
      have hstep : (add id s i).next = (add id s i).tic * E / 50 ∧
          50 * (s.count + i) / E ≤ (add id s i).tic ∧ (add id s i).tic * E < 50 * (s.count + i + 1) + E := by
        unfold add
        simp only
        by_cases ht : s.next ≤ s.count + i
        · rw [if_pos ht]
          unfold displayTic
          simp only [stars_spec, h1, nextTic_exact, needed_exact]
          refine ⟨trivial, le_max_right _ _, ?_⟩
          rcases le_total (50 * (s.count + i) / E) (s.tic + 1) with hle | hle
          · rw [max_eq_left hle]
            have : s.tic * E < 50 * (s.count + i + 1) := by
              rw [hn] at ht
              have := Nat.div_lt_iff_lt_mul (x := s.tic * E) (y := s.count + i + 1) (k := 50) (by norm_num)
              have := this.mp (by omega)
              omega
            rw [Nat.add_mul]
            omega
          · rw [max_eq_right hle]
            have := Nat.div_mul_le_self (50 * (s.count + i)) E
            omega
        · rw [if_neg ht]
          refine ⟨hn, ?_, ?_⟩
          · have h5 : s.count + i < s.tic * E / 50 := by rw [← hn]; omega
            have h6 : (s.count + i) * 50 < s.tic * E := by
              have := Nat.div_mul_le_self (s.tic * E) 50
              omega
            exact le_of_lt ((Nat.div_lt_iff_lt_mul hE0).mpr (by show 50 * (s.count + i) < s.tic * E; omega))
          · simp only
            omega
      have := ih (add id s i) hinv hstep.1 (by rw [hcnt]; exact hstep.2.1) (by rw [hcnt]; exact hstep.2.2)
        (by rw [hcnt]; omega)
      rw [hcnt] at this
      rw [List.foldl_cons]
      have e : s.count + (i + is.sum) = s.count + i + is.sum := by omega
      rw [e]
      exact this
  have h0 : (restart E).count = 0 := rfl
  have := key incs (restart E) (inv_restart id hE0) (by simp [restart]) (by simp [restart])
    (by simp [restart]) (by rw [h0]; omega)
  rw [h0, Nat.zero_add] at this
  exact this

/-- The hypotheses hold: exact arithmetic is a rounding, and three steps out of seven give 21 stars. -/
example : Rounding id ∧ (∀ i ∈ [1, 2], 0 < i) ∧ [1, 2].sum < 7 ∧ (run id 7 [1, 2]).out = List.replicate 21 '*' := by
  refine ⟨⟨fun _ _ h => h, fun _ _ => rfl⟩, by decide, by decide, ?_⟩
  unfold run add displayTic
  simp [restart, stars_spec, needed_exact, nextTic_exact]

/-- **C139 (violated).** An increment that goes beyond the expected count makes the bar too long and does not end the line. -/
theorem C139_beyond_violated :
    (run id 3 [2, 2]).out = List.replicate 66 '*' := by
  unfold run add displayTic
  simp [restart, stars_spec, needed_exact, nextTic_exact]

/-- **C139 (violated).** The result of `++` is not the count of the call: two calls can return the same. -/
theorem C139_result_violated :
    (([1, 2, 1, 2].foldl step ⟨0, [], []⟩).results = [(1, 2), (2, 2)]) ∧
      ([1, 1, 2, 2].foldl step ⟨0, [], []⟩).results = [(1, 1), (2, 2)] := by
  decide +kernel

end Progress
end Verif
