import Verif.Model.Draw
import Mathlib.Data.Finset.Sort
import Mathlib.Tactic.NormNum

/-!
# C110: the sample is not empty
-/
namespace Verif
namespace Samp

theorem filter_split (D : Nat) (l : List Nat) :
    (l.filter (Part.isFinite D)).length + (l.filter fun i => !Part.isFinite D i).length = l.length := by
  rw [← List.countP_eq_length_filter, ← List.countP_eq_length_filter]
  have := List.length_eq_countP_add_countP (p := Part.isFinite D) (l := l)
  rw [this]
  congr 1
  exact List.countP_congr (fun x _ => by simp)

/-- **C110 (partial).** What is drawn: the sample consists of finite ids of the given list, at most as many as requested;
at most as many are missing as there are infinite ids.
Missing: the sample can be empty (`C110_nonempty_iff`, `C110_violated`). -/
theorem C110_partial (D k : Nat) (ids : List Nat) (hn : ids.Nodup) (s : Finset Nat) (h : GenerateSample D k ids s) :
    (∀ i ∈ s, i ∈ ids ∧ Part.isFinite D i = true) ∧ s.card ≤ k ∧
    min k ids.length ≤ s.card + (ids.filter fun i => !Part.isFinite D i).length := by
  obtain ⟨r, ⟨h1, h2⟩, rfl⟩ := h
  have h3 : (r.filter (Part.isFinite D)).Nodup := (hn.sublist h1).filter _
  have h4 := filter_split D r
  have h5 : (r.filter fun i => !Part.isFinite D i).length ≤ (ids.filter fun i => !Part.isFinite D i).length :=
    (h1.filter _).length_le
  rw [List.toFinset_card_of_nodup h3]
  refine ⟨fun i hi => ?_, by omega, by omega⟩
  obtain ⟨h6, h7⟩ := List.mem_filter.1 (List.mem_toFinset.1 hi)
  exact ⟨h1.subset h6, h7⟩

/-- Non-vacuity: of six points in the plane and the four infinite ones, three ids are drawn, one of which is infinite. -/
example : GenerateSample 2 3 ([1, 2, 3, 4, 5, 6] ++ Part.infIds 2) {2, 5} ∧
    ([1, 2, 3, 4, 5, 6] ++ Part.infIds 2).Nodup :=
  ⟨⟨[2, 5, Part.cINF 2], ⟨by decide +kernel, by decide +kernel⟩, by decide +kernel⟩, by decide +kernel⟩

/-- **C110 (when the sample is safe).** Every drawn sample is non-empty if and only if more ids are requested, and
available, than there are infinite ids. -/
theorem C110_nonempty_iff (D k : Nat) (ids : List Nat) (hn : ids.Nodup) :
    (∀ s, GenerateSample D k ids s → s.Nonempty) ↔
      (ids.filter fun i => !Part.isFinite D i).length < min k ids.length := by
  constructor
  · intro h
    by_contra hc
    have hsub : ((ids.filter fun i => !Part.isFinite D i).take (min k ids.length)).Sublist ids :=
      (List.take_sublist _ _).trans List.filter_sublist
    have hs : GenerateSample D k ids ∅ := by
      refine ⟨_, ⟨hsub, ?_⟩, ?_⟩
      · rw [List.length_take]
        omega
      · rw [eq_comm, List.toFinset_eq_empty_iff, List.filter_eq_nil_iff]
        intro i hi
        have := (List.mem_filter.1 (List.mem_of_mem_take hi)).2
        simpa using this
    exact Finset.not_nonempty_empty (h ∅ hs)
  · intro h s hs
    obtain ⟨_, _, h3⟩ := C110_partial D k ids hn s hs
    exact Finset.card_pos.1 (by omega)

/-- The ids of a triangulator for `n` points: 1 to `n` and the infinite points. -/
def allIds (D n : Nat) : List Nat := (List.range' 1 n) ++ Part.infIds D

theorem allIds_inf {D n : Nat} (hD : D ≤ 32) (h : n < 2 ^ 63) :
    (allIds D n).filter (fun i => !Part.isFinite D i) = Part.infIds D := by
  have hp : 2 ^ D ≤ 2 ^ 32 := Nat.pow_le_pow_right (by omega) hD
  unfold allIds
  rw [List.filter_append, List.filter_eq_nil_iff.2, List.nil_append, List.filter_eq_self]
  · intro i hi
    simp only [Part.infIds, List.mem_range'_1] at hi
    simpa [Part.isFinite] using hi.1
  · intro i hi
    simp only [List.mem_range'_1] at hi
    have h1 : i < Part.cINF D := by
      unfold Part.cINF
      omega
    simpa [Part.isFinite] using h1

theorem allIds_nodup {D n : Nat} (hD : D ≤ 32) (h : n < 2 ^ 63) : (allIds D n).Nodup := by
  have hp : 2 ^ D ≤ 2 ^ 32 := Nat.pow_le_pow_right (by omega) hD
  unfold allIds
  refine List.Nodup.append (List.nodup_range' ..) (List.nodup_range' ..) ?_
  intro i hi hj
  simp only [List.mem_range'_1, Part.infIds, Part.cINF] at hi hj
  omega

/-- The whole input, in terms of the number of points: the sample of the default size cannot be empty if and only if
the square root of the number of points is larger than the number of infinite points. -/
theorem C110_sqrt (D n : Nat) (hD : 1 ≤ D) (hD' : D ≤ 32) (h : n < 2 ^ 63) :
    (∀ s, GenerateSample D (sqrtSize n) (allIds D n) s → s.Nonempty) ↔ (2 ^ D + 1) ^ 2 ≤ n := by
  rw [C110_nonempty_iff D _ _ (allIds_nodup hD' h), allIds_inf hD' h]
  have h1 : (Part.infIds D).length = 2 ^ D := by simp [Part.infIds]
  have h2 : (allIds D n).length = n + 2 ^ D := by simp [allIds, h1]
  rw [h1, h2, sqrtSize, sq, ← Nat.le_sqrt]
  have h3 : Nat.sqrt n ≤ n := Nat.sqrt_le_self n
  omega

/-- The same for the sampling `log`. -/
theorem C110_log (D n : Nat) (hD : D ≤ 32) (h : n < 2 ^ 63) (h0 : n ≠ 0) :
    (∀ s, GenerateSample D (logSize n) (allIds D n) s → s.Nonempty) ↔ 2 ^ (2 ^ D + 1) ≤ n := by
  rw [C110_nonempty_iff D _ _ (allIds_nodup hD h), allIds_inf hD h]
  have h1 : (Part.infIds D).length = 2 ^ D := by simp [Part.infIds]
  have h2 : (allIds D n).length = n + 2 ^ D := by simp [allIds, h1]
  rw [h1, h2, logSize, ← Nat.le_log_iff_pow_le (by omega) h0]
  have h3 : Nat.log 2 n ≤ n := Nat.log_le_self 2 n
  omega

/-- Non-vacuity: 81 points in space with the default sampling are enough, 80 are not. -/
example : (∀ s, GenerateSample 3 (sqrtSize 81) (allIds 3 81) s → s.Nonempty) ∧
    ¬ ∀ s, GenerateSample 3 (sqrtSize 80) (allIds 3 80) s → s.Nonempty :=
  ⟨(C110_sqrt 3 81 (by omega) (by omega) (by norm_num)).2 (by norm_num),
    fun h => absurd ((C110_sqrt 3 80 (by omega) (by omega) (by norm_num)).1 h) (by norm_num)⟩

/-- Non-vacuity: with the sampling `log` it takes 32 points in the plane. -/
example : (∀ s, GenerateSample 2 (logSize 32) (allIds 2 32) s → s.Nonempty) ∧
    ¬ ∀ s, GenerateSample 2 (logSize 31) (allIds 2 31) s → s.Nonempty :=
  ⟨(C110_log 2 32 (by omega) (by norm_num) (by norm_num)).2 (by norm_num),
    fun h => absurd ((C110_log 2 31 (by omega) (by norm_num) (by norm_num)).1 h) (by norm_num)⟩

/-- The nearest sample point of an empty sample: undefined, whatever the kd-tree leaves in the result. -/
theorem nearest_empty [Field K] [LinearOrder K] {D : Nat} (n : Nat) (nn : Vec D K → Nat) (mkChk : Finset Nat → Chk D K)
    (pts : Nat → Vec D K) (bounds : Box D K) (ids : Finset Nat) (i : Nat) (hi : i ∈ ids) (hf : Part.isFinite D i = true) :
    nearestSample n [] nn mkChk pts bounds ids = none := by
  unfold nearestSample
  rw [if_neg]
  intro h
  exact Nat.not_lt_zero _ (h i hi hf)

/-- **C110 is violated.** In space, with up to 511 points and the sampling `log`, or up to 80 points and the default
sampling, the sample can be empty: all of the drawn ids may be infinite. The assignment to the nearest sample point is
then undefined. -/
theorem C110_violated (K : Type) [Field K] [LinearOrder K] (size : Nat → Nat) (n : Nat) (hn : 1 ≤ n)
    (h : (size = logSize ∧ n ≤ 511) ∨ (size = sqrtSize ∧ n ≤ 80))
    (it : Finset Nat → List Nat) (hit : ∀ s, (it s).toFinset = s) (part : List Nat → List Nat) (pts : Nat → Vec 3 K) :
    Draws 3 size n it part pts (allIds 3 n) [] ∧
    ∀ p nn mkChk bounds, nearestSample p [] nn mkChk pts bounds (allIds 3 n).toFinset = none := by
  have h64 : n < 2 ^ 63 := by
    have : (511 : Nat) < 2 ^ 63 := by norm_num
    rcases h with ⟨_, h⟩ | ⟨_, h⟩ <;> omega
  refine ⟨?_, fun p nn mkChk bounds => nearest_empty p nn mkChk pts bounds _ 1 ?_ ?_⟩
  · have h1 : ¬ ∀ s, GenerateSample 3 (size n) (allIds 3 n) s → s.Nonempty := by
      rcases h with ⟨rfl, h⟩ | ⟨rfl, h⟩
      · rw [C110_log 3 n (by omega) h64 (by omega)]
        norm_num
        omega
      · rw [C110_sqrt 3 n (by omega) (by omega) h64]
        norm_num
        omega
    push_neg at h1
    obtain ⟨s, h1, h2⟩ := h1
    refine ⟨s, h1, ?_⟩
    have h3 : it s = [] := by
      rw [← List.toFinset_eq_empty_iff, hit]
      simpa using h2
    rw [h3]
    simp
  · simp [allIds]
    omega
  · decide

/-- Non-vacuity: the iteration in increasing order. -/
example : ∀ s : Finset Nat, (s.sort (· ≤ ·)).toFinset = s := fun s => Finset.sort_toFinset s _

end Samp
end Verif
