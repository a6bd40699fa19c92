import Verif.Model.Sampler
import Mathlib.Analysis.Complex.ExponentialBounds
import Mathlib.Analysis.SpecialFunctions.Log.Basic
import Mathlib.Analysis.SpecialFunctions.Sqrt
import Mathlib.Tactic.Linarith
import Mathlib.Tactic.FieldSimp
import Mathlib.Tactic.NormNum

/-!
# C69: weights of the edges of the sample graph
-/
namespace Verif
namespace Samp
variable {K : Type} [Field K] [LinearOrder K] [IsStrictOrderedRing K] [FloorRing K]

/-- The integer part of a number between two integers that fit into `int`. -/
theorem toInt_between {x : K} {a b : Int} (ha : -2 ^ 31 ≤ a) (hb : b < 2 ^ 31) (h1 : (a : K) ≤ x) (h2 : x ≤ (b : K)) :
    ∃ z, toInt x = some z ∧ a ≤ z ∧ z ≤ b := by
  unfold toInt
  by_cases h : 0 ≤ x
  · have k1 : a ≤ ⌊x⌋ := Int.le_floor.mpr h1
    have k2 : ⌊x⌋ ≤ b := by
      have := Int.floor_mono h2
      rwa [Int.floor_intCast] at this
    exact ⟨⌊x⌋, by simp only [if_pos h]; rw [if_pos ⟨by omega, by omega⟩], k1, k2⟩
  · have k1 : a ≤ ⌈x⌉ := by
      have := Int.ceil_mono h1
      rwa [Int.ceil_intCast] at this
    have k2 : ⌈x⌉ ≤ b := Int.ceil_le.mpr h2
    exact ⟨⌈x⌉, by simp only [if_neg h]; rw [if_pos ⟨by omega, by omega⟩], k1, k2⟩

/-- Conversion to `int` is monotone. -/
theorem toInt_mono {x y : K} (h : x ≤ y) {a b : Int} (ha : toInt x = some a) (hb : toInt y = some b) : a ≤ b := by
  unfold toInt at ha hb
  simp only [Option.ite_none_right_eq_some, Option.some.injEq] at ha hb
  obtain ⟨-, rfl⟩ := ha
  obtain ⟨-, rfl⟩ := hb
  by_cases hx : 0 ≤ x
  · rw [if_pos hx, if_pos (hx.trans h)]; exact Int.floor_mono h
  · rw [if_neg hx]
    by_cases hy : 0 ≤ y
    · rw [if_pos hy]
      exact (Int.ceil_le.mpr (by push_cast; exact (not_le.mp hx).le)).trans (Int.floor_nonneg.mpr hy)
    · rw [if_neg hy]; exact Int.ceil_mono h

/-- The slope of a mapper: non-negative and not larger than the exact slope. -/
theorem Mapper.make_spec {a b : K} {c d : Int} {m : Mapper K} (hab : a < b) (hcd : c ≤ d) (hm : Mapper.make a b c d = some m) :
    m.minIn = a ∧ m.maxIn = b ∧ m.minOut = c ∧ m.maxOut = d ∧ 0 ≤ m.scale ∧ m.scale = ⌊((d - c : Int) : K) / (b - a)⌋ ∧
      (b - a) * (m.scale : K) ≤ ((d - c : Int) : K) := by
  have hpos : 0 < b - a := sub_pos.mpr hab
  have hnn : (0 : K) ≤ ((d - c : Int) : K) / (b - a) := div_nonneg (Int.cast_nonneg (by omega)) hpos.le
  rw [Mapper.make, if_neg hpos.ne', Option.map_eq_some_iff] at hm
  obtain ⟨s, hs, rfl⟩ := hm
  simp only [toInt, if_pos hnn, Option.ite_none_right_eq_some, Option.some.injEq] at hs
  obtain ⟨_, rfl⟩ := hs
  refine ⟨rfl, rfl, rfl, rfl, Int.floor_nonneg.mpr hnn, rfl, ?_⟩
  have := Int.floor_le (((d - c : Int) : K) / (b - a))
  calc (b - a) * ((⌊((d - c : Int) : K) / (b - a)⌋ : Int) : K) ≤ (b - a) * (((d - c : Int) : K) / (b - a)) :=
        mul_le_mul_of_nonneg_left this hpos.le
    _ = ((d - c : Int) : K) := mul_div_cancel₀ _ hpos.ne'

/-- The clamped argument. -/
theorem clamp_mem {a b x : K} (hab : a ≤ b) : a ≤ (if x < a then a else if b < x then b else x) ∧
    (if x < a then a else if b < x then b else x) ≤ b := by
  split_ifs with h1 h2
  · exact ⟨le_rfl, hab⟩
  · exact ⟨hab, le_rfl⟩
  · exact ⟨not_lt.mp h1, not_lt.mp h2⟩

theorem clamp_mono {a b x y : K} (hab : a ≤ b) (hxy : x ≤ y) :
    (if x < a then a else if b < x then b else x) ≤ (if y < a then a else if b < y then b else y) := by
  split_ifs <;> first | exact le_rfl | assumption | linarith

/-- **C69 (partial).** A mapper that could be constructed maps every input to an output in the range, is monotone, and maps
the smallest input to the smallest output. If no output is negative, it maps the largest input to the largest output if and only if
the slope is an integer. -/
theorem C69_partial {a b : K} {c d : Int} {m : Mapper K} (hab : a < b) (hcd : c ≤ d) (hc : -2 ^ 31 ≤ c) (hd : d < 2 ^ 31)
    (hm : Mapper.make a b c d = some m) :
    (∀ x, ∃ y, m.apply x = some y ∧ c ≤ y ∧ y ≤ d) ∧
    (∀ x y u v, x ≤ y → m.apply x = some u → m.apply y = some v → u ≤ v) ∧
    (∀ x, x ≤ a → m.apply x = some c) ∧
    (0 ≤ c → (m.apply b = some d ↔ ∃ k : Int, ((d - c : Int) : K) = k * (b - a))) := by
  obtain ⟨e1, e2, e3, e4, hs, hfl, hle⟩ := Mapper.make_spec hab hcd hm
  have hs' : (0 : K) ≤ (m.scale : K) := Int.cast_nonneg hs
  have hap : ∀ x, m.apply x = toInt (((if x < a then a else if b < x then b else x) - a) * (m.scale : K) + (c : K)) := by
    intro x
    rw [Mapper.apply, e1, e2, e3, if_neg (not_lt.mpr hab.le)]
  have hrange : ∀ z : K, a ≤ z → z ≤ b → (c : K) ≤ (z - a) * (m.scale : K) + (c : K) ∧ (z - a) * (m.scale : K) + (c : K) ≤ (d : K) := by
    intro z h1 h2
    have k1 : 0 ≤ (z - a) * (m.scale : K) := mul_nonneg (sub_nonneg.mpr h1) hs'
    have k2 : (z - a) * (m.scale : K) ≤ (b - a) * (m.scale : K) := mul_le_mul_of_nonneg_right (by linarith) hs'
    rw [Int.cast_sub] at hle
    exact ⟨by linarith, by linarith⟩
  have hint : ∀ z : Int, c ≤ z → z ≤ d → toInt (z : K) = some z := by
    intro z h1 h2
    obtain ⟨y, hy, k1, k2⟩ := toInt_between (x := (z : K)) (a := z) (b := z) (by omega) (by omega) le_rfl le_rfl
    rw [hy, le_antisymm k2 k1]
  refine ⟨fun x => ?_, fun x y u v hxy hu hv => ?_, fun x hx => ?_, ?_⟩
  · rw [hap]
    obtain ⟨k1, k2⟩ := hrange _ (clamp_mem (x := x) hab.le).1 (clamp_mem hab.le).2
    exact toInt_between hc hd k1 k2
  · rw [hap] at hu hv
    refine toInt_mono ?_ hu hv
    have := mul_le_mul_of_nonneg_right (sub_le_sub_right (clamp_mono hab.le hxy) a) hs'
    linarith
  · rw [hap]
    have : (if x < a then a else if b < x then b else x) = a := by
      split_ifs with h1 h2
      · rfl
      · linarith
      · exact le_antisymm hx (not_lt.mp h1)
    rw [this, sub_self, zero_mul, zero_add]
    exact hint c le_rfl hcd
  · intro hc0
    rw [hap, if_neg (not_lt.mpr hab.le), if_neg (lt_irrefl b)]
    obtain ⟨k1, k2⟩ := hrange b hab.le le_rfl
    constructor
    · intro h
      refine ⟨m.scale, ?_⟩
      have hup : (d : K) ≤ (b - a) * (m.scale : K) + (c : K) := by
        simp only [toInt, Option.ite_none_right_eq_some, Option.some.injEq] at h
        obtain ⟨_, h⟩ := h
        by_cases hx : 0 ≤ (b - a) * (m.scale : K) + (c : K)
        · rw [if_pos hx] at h
          rw [← h]; exact Int.floor_le _
        · rw [if_neg hx] at h
          exact absurd ((Int.cast_nonneg hc0).trans k1) hx
      rw [Int.cast_sub]
      linarith [mul_comm (b - a) (m.scale : K)]
    · rintro ⟨k, hk⟩
      have hk' : m.scale = k := by
        rw [hfl, hk, mul_div_cancel_right₀ _ (sub_pos.mpr hab).ne', Int.floor_intCast]
      have : (b - a) * (m.scale : K) + (c : K) = (d : K) := by
        rw [hk', mul_comm, ← hk, Int.cast_sub, sub_add_cancel]
      rw [this]
      exact hint d hcd le_rfl

/-- **C69 (flat).** If the input range is longer than the output range, all inputs are mapped to the smallest output. -/
theorem C69_flat {a b : K} {c d : Int} {m : Mapper K} (hcd : c ≤ d) (hc : -2 ^ 31 ≤ c) (hd : d < 2 ^ 31)
    (hlong : ((d - c : Int) : K) < b - a) (hm : Mapper.make a b c d = some m) (x : K) : m.apply x = some c := by
  have hab : a < b := sub_pos.mp ((Int.cast_nonneg (by omega)).trans_lt hlong)
  obtain ⟨e1, e2, e3, e4, hs, hfl, hle⟩ := Mapper.make_spec hab hcd hm
  have h0 : m.scale = 0 := by
    rw [hfl, Int.floor_eq_zero_iff]
    exact ⟨div_nonneg (Int.cast_nonneg (by omega)) (sub_pos.mpr hab).le, (div_lt_one (sub_pos.mpr hab)).mpr hlong⟩
  obtain ⟨z, hz, k1, k2⟩ := toInt_between (x := (c : K)) (a := c) (b := c) hc (by omega) le_rfl le_rfl
  rw [Mapper.apply, e1, e2, e3, if_neg (not_lt.mpr hab.le)]
  simp only [h0, Int.cast_zero, mul_zero, zero_add]
  rw [hz, le_antisymm k2 k1]

/-- The mapper of a weight function exists if the range of the weights is not too small. -/
theorem weightMapper_some {f : K → K} (h : 1 / 1000000 < |f 0 - f 1|) : ∃ m, weightMapper f = some m := by
  have hpos : 0 < max (f 0) (f 1) - min (f 0) (f 1) := by rw [max_sub_min_eq_abs']; exact lt_trans (by norm_num) h
  obtain ⟨z, hz, _⟩ := toInt_between (x := ((99 - 1 : Int) : K) / (max (f 0) (f 1) - min (f 0) (f 1))) (a := 0) (b := 98000000)
    (by norm_num) (by norm_num) (by push_cast; exact div_nonneg (by norm_num) hpos.le) (by
      rw [div_le_iff₀ hpos]
      rw [max_sub_min_eq_abs'] 
      push_cast
      linarith)
  exact ⟨_, by rw [weightMapper, Mapper.make, if_neg hpos.ne', hz, Option.map_some]⟩

/-- **C69 (weights).** For every weight function whose values at 0 and 1 differ by more than one millionth, the weight of
every edge is between 1 and 99. -/
theorem C69_weights {D : Nat} (f : K → K) (h : 1 / 1000000 < |f 0 - f 1|) (maxDist : K) (a b : Vec D K) :
    ∃ y, edgeWeight (some f) maxDist a b = some y ∧ 1 ≤ y ∧ y ≤ 99 := by
  obtain ⟨m, hm⟩ := weightMapper_some h
  have hlt : min (f 0) (f 1) < max (f 0) (f 1) := sub_pos.mp (by rw [max_sub_min_eq_abs']; exact lt_trans (by norm_num) h)
  obtain ⟨h1, _⟩ := C69_partial hlt (by norm_num) (by norm_num) (by norm_num) hm
  obtain ⟨y, hy, k⟩ := h1 (f (Vecs.lenSq (Vecs.sub a b) / maxDist))
  exact ⟨y, by rw [edgeWeight, hm]; exact hy, k⟩

/-- The weight function of `--edge-weights squared-inverted`. (include/load_balancing/CommandLineInterface.h:132) -/
def squaredInverted (d : K) : K := 1 / (d + 1 / 10000000)

/-- The weight function of `--edge-weights inverted`. (include/load_balancing/CommandLineInterface.h:134) -/
noncomputable def inverted (d : ℝ) : ℝ := 1 / Real.sqrt (d + 1 / 10000000)

/-- The weight function of `--edge-weights linear`. (include/load_balancing/CommandLineInterface.h:136) -/
def linearWeight (d : K) : K := 1 - d

/-- The weight function of `--edge-weights log`. (include/load_balancing/CommandLineInterface.h:138) -/
noncomputable def logWeight (d : ℝ) : ℝ := -Real.log (d + 1 / 10000000)

theorem flat_weights {D : Nat} {f : K → K} (h : 98 < |f 0 - f 1|) (maxDist : K) (a b : Vec D K) :
    edgeWeight (some f) maxDist a b = some 1 := by
  obtain ⟨m, hm⟩ := weightMapper_some (f := f) (lt_trans (by norm_num) h)
  rw [edgeWeight, hm]
  exact C69_flat (c := 1) (d := 99) (by norm_num) (by norm_num) (by norm_num) (by rw [max_sub_min_eq_abs']; push_cast; linarith) hm _

/-- **C69 (violated).** With the weight function `squared-inverted` all edges have weight 1, however long they are. -/
theorem C69_squared_inverted_violated {D : Nat} (maxDist : K) (a b : Vec D K) :
    edgeWeight (some squaredInverted) maxDist a b = some 1 := by
  refine flat_weights ?_ maxDist a b
  have : (squaredInverted 0 : K) - squaredInverted 1 = 10000000 - 10000000 / 10000001 := by norm_num [squaredInverted]
  rw [this, lt_abs]
  left
  norm_num

/-- **C69 (violated).** The same for the weight function `inverted`. -/
theorem C69_inverted_violated {D : Nat} (maxDist : ℝ) (a b : Vec D ℝ) : edgeWeight (some inverted) maxDist a b = some 1 := by
  refine flat_weights ?_ maxDist a b
  have h0 : Real.sqrt (0 + 1 / 10000000) < 1 / 1000 := by
    rw [Real.sqrt_lt' (by norm_num)]; norm_num
  have h0' : 0 < Real.sqrt (0 + 1 / 10000000) := Real.sqrt_pos.mpr (by norm_num)
  have h1 : 1 ≤ Real.sqrt (1 + 1 / 10000000) := by
    rw [Real.one_le_sqrt]; norm_num
  have k0 : 1000 < inverted 0 := by
    rw [inverted, lt_div_iff₀ h0']; linarith
  have k1 : inverted 1 ≤ 1 := by
    rw [inverted, div_le_one (by linarith)]; exact h1
  rw [lt_abs]
  left
  linarith

/-- The range of the weight function `log`. -/
theorem log_range : 14 < logWeight 0 - logWeight 1 ∧ logWeight 0 - logWeight 1 < 49 / 3 := by
  have e : logWeight 0 - logWeight 1 = Real.log (10000001 / 10000000) + 7 * Real.log 10 := by
    have h1 : Real.log (0 + 1 / 10000000) = -(7 * Real.log 10) := by
      rw [zero_add, one_div, Real.log_inv, show (10000000 : ℝ) = 10 ^ 7 by norm_num, Real.log_pow]
      norm_num
    rw [logWeight, logWeight, h1]
    norm_num
    ring
  have l1 : Real.log (10000001 / 10000000) ≤ 1 / 10000000 := by
    have := Real.log_le_sub_one_of_pos (x := 10000001 / 10000000) (by norm_num)
    linarith
  have l0 : 0 ≤ Real.log (10000001 / 10000000) := Real.log_nonneg (by norm_num)
  have u : Real.log 10 < 58 / 25 := by
    rw [Real.log_lt_iff_lt_exp (by norm_num)]
    have h1 : Real.exp (58 / 25) ^ 25 = Real.exp 1 ^ 58 := by
      rw [← Real.exp_nat_mul, ← Real.exp_nat_mul]; norm_num
    refine lt_of_pow_lt_pow_left₀ 25 (Real.exp_pos _).le ?_
    rw [h1]
    calc (10 : ℝ) ^ 25 < 2.7182 ^ 58 := by norm_num
      _ ≤ Real.exp 1 ^ 58 := pow_le_pow_left₀ (by norm_num) (by linarith [Real.exp_one_gt_d9]) 58
  have l : 2 < Real.log 10 := by
    rw [Real.lt_log_iff_exp_lt (by norm_num)]
    have h1 : Real.exp 2 = Real.exp 1 ^ 2 := by rw [← Real.exp_nat_mul]; norm_num
    rw [h1]
    calc Real.exp 1 ^ 2 ≤ 2.7183 ^ 2 := pow_le_pow_left₀ (Real.exp_pos _).le (by linarith [Real.exp_one_lt_d9]) 2
      _ < 10 := by norm_num
  constructor <;> linarith

/-- **C69 (violated).** With the weight function `log` the largest weight is not reached. -/
theorem C69_log_violated {D : Nat} (maxDist : ℝ) (a b : Vec D ℝ) : ∃ y, edgeWeight (some logWeight) maxDist a b = some y ∧ y < 99 := by
  obtain ⟨g1, g2⟩ := log_range
  have habs : |logWeight 0 - logWeight 1| = logWeight 0 - logWeight 1 := abs_of_pos (by linarith)
  obtain ⟨m, hm⟩ := weightMapper_some (f := logWeight) (by rw [habs]; linarith)
  have hlt : min (logWeight 0) (logWeight 1) < max (logWeight 0) (logWeight 1) :=
    sub_pos.mp (by rw [max_sub_min_eq_abs', habs]; linarith)
  obtain ⟨h1, h2, h3, h4⟩ := C69_partial hlt (by norm_num) (by norm_num) (by norm_num) hm
  obtain ⟨y, hy, k1, k2⟩ := h1 (logWeight (Vecs.lenSq (Vecs.sub a b) / maxDist))
  obtain ⟨z, hz, z1, z2⟩ := h1 (max (logWeight 0) (logWeight 1))
  have hzne : z ≠ 99 := by
    rintro rfl
    obtain ⟨k, hk⟩ := (h4 (by norm_num)).mp hz
    rw [max_sub_min_eq_abs', habs] at hk
    push_cast at hk
    have k6 : (6 : ℝ) < k := by
      by_contra hcon
      have := mul_le_mul_of_nonneg_right (not_lt.mp hcon) (show (0 : ℝ) ≤ logWeight 0 - logWeight 1 by linarith)
      linarith
    have k7 : (k : ℝ) < 7 := by
      by_contra hcon
      have := mul_le_mul_of_nonneg_right (not_lt.mp hcon) (show (0 : ℝ) ≤ logWeight 0 - logWeight 1 by linarith)
      linarith
    have : (6 : Int) < k ∧ k < 7 := ⟨by exact_mod_cast k6, by exact_mod_cast k7⟩
    omega
  refine ⟨y, by rw [edgeWeight, hm]; exact hy, ?_⟩
  have hcl : m.apply (logWeight (Vecs.lenSq (Vecs.sub a b) / maxDist)) = some y := hy
  rcases le_total (logWeight (Vecs.lenSq (Vecs.sub a b) / maxDist)) (max (logWeight 0) (logWeight 1)) with h | h
  · have := h2 _ _ _ _ h hy hz
    omega
  · obtain ⟨e1, e2, _⟩ := Mapper.make_spec hlt (by norm_num) hm
    have : m.apply (logWeight (Vecs.lenSq (Vecs.sub a b) / maxDist)) = m.apply (max (logWeight 0) (logWeight 1)) := by
      unfold Mapper.apply
      rw [e1, e2, if_neg (not_lt.mpr hlt.le), if_neg (not_lt.mpr hlt.le)]
      rw [if_neg (not_lt.mpr (hlt.le.trans h)), if_neg (not_lt.mpr hlt.le), if_neg (lt_irrefl _)]
      split_ifs with h5
      · rfl
      · rw [le_antisymm (not_lt.mp h5) h]
    rw [this, hz] at hy
    cases hy
    omega

/-- **C69 (linear).** With the weight function `linear` the whole range is used: points at distance zero have weight 99,
points at the largest distance have weight 1. -/
theorem C69_linear {D : Nat} {maxDist : K} (a b : Vec D K) :
    (Vecs.lenSq (Vecs.sub a b) / maxDist = 0 → edgeWeight (some linearWeight) maxDist a b = some 99) ∧
    (Vecs.lenSq (Vecs.sub a b) / maxDist = 1 → edgeWeight (some linearWeight) maxDist a b = some 1) := by
  have e0 : (linearWeight 0 : K) = 1 := by simp [linearWeight]
  have e1 : (linearWeight 1 : K) = 0 := by simp [linearWeight]
  obtain ⟨m, hm⟩ := weightMapper_some (f := linearWeight (K := K)) (by rw [e0, e1]; norm_num)
  have hm' := hm
  rw [weightMapper, e0, e1, min_eq_right zero_le_one, max_eq_left zero_le_one] at hm'
  obtain ⟨_, _, h3, h4⟩ := C69_partial (zero_lt_one' K) (by norm_num) (by norm_num) (by norm_num) hm'
  constructor
  · intro h
    rw [edgeWeight, hm]
    change m.apply (linearWeight (Vecs.lenSq (Vecs.sub a b) / maxDist)) = some 99
    rw [h, e0]
    exact (h4 (by norm_num)).mpr ⟨98, by push_cast; norm_num⟩
  · intro h
    rw [edgeWeight, hm]
    change m.apply (linearWeight (Vecs.lenSq (Vecs.sub a b) / maxDist)) = some 1
    rw [h, e1]
    exact h3 0 le_rfl

/-- A mapper with an integer slope. -/
example : ∃ m, Mapper.make (0 : ℚ) 7 1 99 = some m ∧ m.apply 3 = some 43 ∧ m.apply 7 = some 99 := by
  refine ⟨⟨0, 7, 1, 99, 14⟩, ?_, ?_, ?_⟩
  · have : ⌊(14 : ℚ)⌋ = 14 := by norm_num
    norm_num [Mapper.make, toInt]
  · norm_num [Mapper.apply, toInt]
  · norm_num [Mapper.apply, toInt]

end Samp
end Verif
