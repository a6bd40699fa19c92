import Mathlib.Algebra.BigOperators.Group.List.Basic
import Mathlib.Tactic.Linarith
import Verif.Model.Profiler

/-!
# C135: the averages of the profiler
-/
namespace Verif
namespace Prof

theorem meas_perm {s t : List Nat × List (List Nat)} (h : Meas s t) : (s.1 ++ s.2.flatten).Perm (t.1 ++ t.2.flatten) := by
  induction h with
  | refl => exact .refl _
  | push _ ih =>
    refine List.Perm.trans ?_ ih
    simp only [List.flatten_append, List.flatten_cons, List.append_assoc, List.singleton_append, List.cons_append]
    exact List.Perm.append_left _ List.perm_middle

theorem sumLoop_eq : ∀ (ms : List Nat) (a : Nat), a + ms.sum < 2 ^ 64 → sumLoop ms a = a + ms.sum
  | [], a, _ => by simp [sumLoop]
  | m :: ms, a, h => by
    simp only [List.sum_cons] at h
    have e : add a m = a + m := Nat.mod_eq_of_lt (by omega)
    simp only [sumLoop, e, List.sum_cons]
    rw [sumLoop_eq ms (a + m) (by omega)]
    omega

/-- **C135 (part).** Whatever the order in which the threads add their measurements, none is lost or invented, and the
average is the mean of all of them, rounded down. -/
theorem C135_measurements (l : List (List Nat)) (h : l.flatten.sum < 2 ^ 64) (hne : l.flatten ≠ []) (ms : List Nat)
    (ts : List (List Nat)) (run : Meas ([], l) (ms, ts)) (hend : ∀ t ∈ ts, t = []) :
    ms.Perm l.flatten ∧ ∃ a, avg (some ms) = .done a ∧ a * l.flatten.length ≤ l.flatten.sum ∧
      l.flatten.sum < (a + 1) * l.flatten.length := by
  have hp := meas_perm run
  have e : ts.flatten = [] := by simpa [List.flatten_eq_nil_iff] using hend
  simp only [List.nil_append, e, List.append_nil] at hp
  refine ⟨hp.symm, ?_⟩
  have hl := hp.length_eq
  have hs := hp.sum_eq
  have hpos : 0 < l.flatten.length := List.length_pos_iff.2 hne
  refine ⟨l.flatten.sum / l.flatten.length, ?_, Nat.div_mul_le_self _ _, ?_⟩
  · simp only [avg]
    rw [sumLoop_eq ms 0 (by omega), ← hl, ← hs, if_pos hpos, Nat.zero_add]
  · rw [Nat.mul_comm]
    exact Nat.lt_mul_div_succ _ hpos

theorem sum_bounds : ∀ (ms : List Nat) (lo hi : Nat), (∀ m ∈ ms, lo ≤ m ∧ m ≤ hi) →
    ms.length * lo ≤ ms.sum ∧ ms.sum ≤ ms.length * hi
  | [], _, _, _ => by simp
  | m :: ms, lo, hi, h => by
    obtain ⟨h1, h2⟩ := sum_bounds ms lo hi fun x hx => h x (List.mem_cons_of_mem _ hx)
    obtain ⟨h3, h4⟩ := h m (by simp)
    simp only [List.length_cons, List.sum_cons, Nat.add_mul, Nat.one_mul]
    omega

/-- **C135 (part).** The average of measurements lies between the bounds of the measurements. -/
theorem C135_between (ms : List Nat) (lo hi : Nat) (h : ms.sum < 2 ^ 64) (hne : ms ≠ [])
    (hb : ∀ m ∈ ms, lo ≤ m ∧ m ≤ hi) : ∃ a, avg (some ms) = .done a ∧ lo ≤ a ∧ a ≤ hi := by
  have hpos : 0 < ms.length := List.length_pos_iff.2 hne
  have h1 : ms.length * lo ≤ ms.sum := by
    exact (sum_bounds ms lo hi hb).1
  have h2 : ms.sum ≤ ms.length * hi := by
    exact (sum_bounds ms lo hi hb).2
  refine ⟨ms.sum / ms.length, ?_, (Nat.le_div_iff_mul_le hpos).2 (by rw [Nat.mul_comm]; exact h1), ?_⟩
  · simp only [avg]
    rw [sumLoop_eq ms 0 (by omega), if_pos hpos, Nat.zero_add]
  · exact Nat.div_le_of_le_mul h2

/-- Two threads with three measurements. -/
example : Meas ([], [[10, 11], [20]]) ([10, 20, 11], [[], []]) ∧ avg (some [10, 20, 11]) = .done 13 :=
  ⟨.push (a := []) (b := [[20]]) <| .push (a := [[11]]) (b := []) <| .push (a := []) (b := [[]]) <| .refl _, by decide⟩

/-- **C135 (part).** What is recorded as a percentage of a part is 1 for the whole and 0 for everything else. -/
theorem C135_perc_partial (part all : Nat) (h0 : 0 < all) (h : part ≤ all) :
    perc part all = .done (if part = all then 1 else 0) := by
  unfold perc
  rw [if_neg (by omega)]
  split
  · subst_vars
    rw [Nat.div_self h0]
  · rw [Nat.div_eq_of_lt (by omega)]

example : perc 7 7 = .done 1 ∧ perc 6 7 = .done 0 := by decide

/-- **C135, negation.** 999 edge points of 1000 points are recorded as 0 percent. -/
theorem C135_perc_violated : ∃ part all, 0 < all ∧ part ≤ all ∧ perc part all ≠ .done (100 * part / all) ∧
    perc part all = .done 0 ∧ 100 * part / all = 99 :=
  ⟨999, 1000, by decide, by decide, by decide, by decide, by decide⟩

end Prof
end Verif
