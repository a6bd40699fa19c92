import Verif.Model.Misc
import Verif.Lemmas.Probe
import Mathlib.Data.Nat.Bitwise
import Mathlib.Tactic.Ring
import Mathlib.Data.List.Sort

/-!
# C28, C29, C30: integer helpers, string splitting, the static sort
-/
namespace Verif
namespace Misc

/-! ## C29 -/

theorem and_pred_eq_zero : ∀ n : Nat, n ≠ 0 → (n &&& (n - 1) = 0 ↔ ∃ k, n = 2 ^ k) := by
  intro n
  induction n using Nat.strongRecOn with
  | _ n ih =>
    intro hn
    rcases Nat.even_or_odd' n with ⟨m, hm | hm⟩
    · have hm0 : m ≠ 0 := by omega
      have h1 : n &&& (n - 1) = 2 * (m &&& (m - 1)) := by
        have e1 : n = Nat.bit false m := by simp [Nat.bit]; omega
        have e2 : n - 1 = Nat.bit true (m - 1) := by simp [Nat.bit]; omega
        rw [e2]
        conv_lhs => rw [e1]
        rw [Nat.land_bit]
        simp [Nat.bit]
      rw [h1]
      have := ih m (by omega) hm0
      constructor
      · intro h
        obtain ⟨k, hk⟩ := this.1 (by omega)
        exact ⟨k + 1, by rw [Nat.pow_succ]; omega⟩
      · rintro ⟨k, hk⟩
        cases k with
        | zero => omega
        | succ k =>
          rw [Nat.pow_succ] at hk
          have := this.2 ⟨k, by omega⟩
          omega
    · have h1 : n &&& (n - 1) = 2 * m := by
        have e1 : n = Nat.bit true m := by simp [Nat.bit]; omega
        have e2 : n - 1 = Nat.bit false m := by simp [Nat.bit]; omega
        rw [e2]
        conv_lhs => rw [e1]
        rw [Nat.land_bit]
        simp [Nat.bit]
      rw [h1]
      constructor
      · intro h
        exact ⟨0, by simp; omega⟩
      · rintro ⟨k, hk⟩
        cases k with
        | zero => simp at hk; omega
        | succ k => rw [Nat.pow_succ] at hk; omega

/-- **C29 (isPow2).** For every 64-bit word. -/
theorem C29_isPow2 (x : BitVec 64) : isPow2 x = true ↔ ∃ k, x.toNat = 2 ^ k := by
  unfold isPow2
  by_cases hx : x = 0#64
  · subst hx
    simp
    intro k h
    have := Nat.pow_pos (n := k) (show 0 < 2 by omega)
    omega
  · have hx0 : x.toNat ≠ 0 := fun h => hx (BitVec.eq_of_toNat_eq (by simpa using h))
    rw [← and_pred_eq_zero _ hx0]
    have hs : (x - 1#64).toNat = x.toNat - 1 := by
      have := x.isLt
      rw [BitVec.toNat_sub]; simp; omega
    simp only [Bool.and_eq_true, bne_iff_ne, ne_eq, hx, not_false_eq_true, true_and, beq_iff_eq]
    rw [← BitVec.toNat_inj, BitVec.toNat_and, hs]
    simp

/-- **C29 violated (isPowN).** `isPowN(12, 4)` holds although 12 is not a power of 4, and
`isPowN(1, 4)` does not hold although `1 = 4^0`. -/
theorem C29_isPowN_violated :
    (isPowN 12#64 4#64 = some true ∧ ¬ ∃ k, 12 = 4 ^ k) ∧
    (isPowN 1#64 4#64 = some false ∧ ∃ k, 1 = 4 ^ k) := by
  refine ⟨⟨by decide, ?_⟩, ⟨by decide, 0, rfl⟩⟩
  rintro ⟨k, hk⟩
  match k with
  | 0 => simp at hk
  | 1 => simp at hk
  | k + 2 =>
    have : 0 < 4 ^ k := Nat.pow_pos (by omega)
    rw [Nat.pow_add] at hk
    omega

/-- **C29 (isPowN, partial).** What it does decide: divisibility of a non-zero word; every positive
power is accepted. -/
theorem C29_isPowN_partial (x n : BitVec 64) (hn : n ≠ 0#64) :
    isPowN x n = some (decide (x.toNat ≠ 0 ∧ n.toNat ∣ x.toNat)) := by
  unfold isPowN
  rw [if_neg hn]
  split
  · rename_i h; subst h; simp
  · rename_i h
    have hx0 : x.toNat ≠ 0 := fun h' => h (BitVec.eq_of_toNat_eq (by simpa using h'))
    congr 1
    rw [Bool.eq_iff_iff]
    simp only [beq_iff_eq, decide_eq_true_eq, hx0, ne_eq, not_false_eq_true, true_and]
    rw [← BitVec.toNat_inj, BitVec.toNat_umod]
    simp [Nat.dvd_iff_mod_eq_zero]

example : (4#64 : BitVec 64) ≠ 0#64 := by decide

/-! nextPow2 -/

theorem smear_getLsbD (v : BitVec 64) (j : Nat) :
    (smear v).getLsbD j = true ↔ ∃ m, j ≤ m ∧ m < j + 64 ∧ v.getLsbD m = true := by
  have step : ∀ (w : BitVec 64) (s : Nat) (j : Nat),
      (w ||| (w >>> s)).getLsbD j = true ↔ w.getLsbD j = true ∨ w.getLsbD (s + j) = true := by
    intro w s j
    simp [BitVec.getLsbD_or]
  have comb : ∀ (w : BitVec 64) (s : Nat),
      (∀ j, w.getLsbD j = true ↔ ∃ m, j ≤ m ∧ m < j + s ∧ v.getLsbD m = true) →
      ∀ j, (w ||| (w >>> s)).getLsbD j = true ↔
        ∃ m, j ≤ m ∧ m < j + (s + s) ∧ v.getLsbD m = true := by
    intro w s hw j
    rw [step, hw, hw]
    constructor
    · rintro (⟨m, h1, h2, h3⟩ | ⟨m, h1, h2, h3⟩)
      · exact ⟨m, h1, by omega, h3⟩
      · exact ⟨m, by omega, by omega, h3⟩
    · rintro ⟨m, h1, h2, h3⟩
      by_cases h : m < j + s
      · exact Or.inl ⟨m, h1, h, h3⟩
      · exact Or.inr ⟨m, by omega, by omega, h3⟩
  have h0 : ∀ j, v.getLsbD j = true ↔ ∃ m, j ≤ m ∧ m < j + 1 ∧ v.getLsbD m = true := by
    intro j
    constructor
    · intro h; exact ⟨j, le_rfl, by omega, h⟩
    · rintro ⟨m, h1, h2, h3⟩
      have : m = j := by omega
      rw [← this]; exact h3
  have h1 := comb _ 1 h0
  have h2 := comb _ 2 h1
  have h3 := comb _ 4 h2
  have h4 := comb _ 8 h3
  have h5 := comb _ 16 h4
  have h6 := comb _ 32 h5
  exact h6 j

theorem smear_toNat {v : BitVec 64} (hv : v.toNat ≠ 0) :
    (smear v).toNat = 2 ^ (Nat.log2 v.toNat + 1) - 1 := by
  apply Nat.eq_of_testBit_eq
  intro j
  rw [Nat.testBit_two_pow_sub_one]
  have := smear_getLsbD v j
  simp only [← BitVec.testBit_toNat] at this
  rw [Bool.eq_iff_iff, this]
  simp only [decide_eq_true_eq]
  constructor
  · rintro ⟨m, h1, h2, h3⟩
    by_contra hlt
    have : v.toNat < 2 ^ m := by
      have hm : Nat.log2 v.toNat < m := by omega
      exact (Nat.log2_lt hv).1 hm
    rw [Nat.testBit_lt_two_pow this] at h3
    cases h3
  · intro h
    refine ⟨Nat.log2 v.toNat, by omega, ?_, ?_⟩
    · have : Nat.log2 v.toNat < 64 := (Nat.log2_lt hv).2 v.isLt
      omega
    · exact Nat.testBit_log2 hv

theorem nextPow2_eq_log2 {x : Nat} (h : 2 ≤ x) : nextPow2 x = 2 ^ (Nat.log2 (x - 1) + 1) := by
  rw [nextPow2_pos (by omega)]
  congr 1
  have hx : x - 1 ≠ 0 := by omega
  apply le_antisymm
  · rw [Nat.clog_le_iff_le_pow (by omega)]
    have : x - 1 < 2 ^ (Nat.log2 (x - 1) + 1) := (Nat.log2_lt hx).1 (Nat.lt_succ_self _)
    omega
  · have : 2 ^ Nat.log2 (x - 1) < x := by
      have := Nat.log2_self_le hx
      omega
    exact (Nat.lt_clog_iff_pow_lt (by omega)).2 this

/-- **C29 (nextPow2).** For every 64-bit word between 1 and `2^63` the result is the least power of
two that is not smaller; for 0 it is 0. -/
theorem C29_nextPow2 (x : BitVec 64) (hx : 1 ≤ x.toNat) (hx2 : x.toNat ≤ 2 ^ 63) :
    (∃ k, (nextPow2W x).toNat = 2 ^ k) ∧ x.toNat ≤ (nextPow2W x).toNat ∧
      ∀ k, x.toNat ≤ 2 ^ k → (nextPow2W x).toNat ≤ 2 ^ k := by
  have key : (nextPow2W x).toNat = nextPow2 x.toNat := by
    have hs : (x - 1#64).toNat = x.toNat - 1 := by
      have := x.isLt
      rw [BitVec.toNat_sub]; simp; omega
    unfold nextPow2W
    rw [BitVec.toNat_add]
    by_cases h1 : x.toNat = 1
    · have hz : x - 1#64 = 0#64 := BitVec.eq_of_toNat_eq (by rw [hs, h1]; simp)
      rw [hz, h1]
      have : nextPow2 1 = 1 := nextPow2_pow 0
      rw [this]
      decide
    · rw [smear_toNat (by rw [hs]; omega), hs, nextPow2_eq_log2 (by omega)]
      have hl : Nat.log2 (x.toNat - 1) < 63 := (Nat.log2_lt (by omega)).2 (by omega)
      have hle : 2 ^ (Nat.log2 (x.toNat - 1) + 1) ≤ 2 ^ 63 := Nat.pow_le_pow_right (by omega) (by omega)
      have hp : 0 < 2 ^ (Nat.log2 (x.toNat - 1) + 1) := Nat.pow_pos (by omega)
      have : (1#64).toNat = 1 := rfl
      rw [this]
      have e : 2 ^ (Nat.log2 (x.toNat - 1) + 1) - 1 + 1 = 2 ^ (Nat.log2 (x.toNat - 1) + 1) := by omega
      rw [e]
      exact Nat.mod_eq_of_lt (lt_of_le_of_lt hle (by decide))
  rw [key]
  refine ⟨nextPow2_isPow (by omega), le_nextPow2 _, fun k hk => ?_⟩
  rw [nextPow2_pos (by omega)]
  exact Nat.pow_le_pow_right (by omega) ((Nat.clog_le_iff_le_pow (by omega)).2 hk)

/-- The word computation agrees with the function used in the hash table models. -/
theorem C29_nextPow2_model (x : BitVec 64) (hx2 : x.toNat ≤ 2 ^ 63) :
    (nextPow2W x).toNat = nextPow2 x.toNat := by
  by_cases h0 : x.toNat = 0
  · have : x = 0#64 := BitVec.eq_of_toNat_eq (by simpa using h0)
    subst this
    decide
  · obtain ⟨⟨k, hk⟩, h1, h2⟩ := C29_nextPow2 x (by omega) hx2
    apply le_antisymm
    · obtain ⟨j, hj⟩ := nextPow2_isPow (x := x.toNat) (by omega)
      rw [hj]
      exact h2 j (by rw [← hj]; exact le_nextPow2 _)
    · rw [hk, nextPow2_pos (by omega)]
      exact Nat.pow_le_pow_right (by omega) ((Nat.clog_le_iff_le_pow (by omega)).2 (by omega))

/-- **C29, boundary of nextPow2.** 0 and everything above `2^63` wrap to 0. -/
theorem C29_nextPow2_wraps (x : BitVec 64) (hx : x.toNat = 0 ∨ 2 ^ 63 < x.toNat) :
    nextPow2W x = 0#64 := by
  rcases hx with h0 | h
  · have : x = 0#64 := BitVec.eq_of_toNat_eq (by simpa using h0)
    subst this
    decide
  · have hs : (x - 1#64).toNat = x.toNat - 1 := by
      have := x.isLt
      rw [BitVec.toNat_sub]; simp; omega
    have hlt := x.isLt
    apply BitVec.eq_of_toNat_eq
    unfold nextPow2W
    rw [BitVec.toNat_add, smear_toNat (by rw [hs]; omega), hs]
    have h1 : Nat.log2 (x.toNat - 1) < 64 := (Nat.log2_lt (by omega)).2 (by omega)
    have h2 : ¬ Nat.log2 (x.toNat - 1) < 63 := by
      rw [Nat.log2_lt (by omega)]; omega
    have : Nat.log2 (x.toNat - 1) = 63 := by omega
    rw [this]
    rfl

example : (BitVec.ofNat 64 5).toNat ≤ 2 ^ 63 ∧ 1 ≤ (5#64).toNat ∧ 2 ^ 63 < (BitVec.allOnes 64).toNat := by
  decide

theorem log2Loop_spec : ∀ (fuel x y : Nat), x < 2 ^ fuel → 0 < x →
    log2Loop x fuel y = y + Nat.log2 x
  | 0, x, y, h, hp => by simp at h; omega
  | fuel + 1, x, y, h, hp => by
    unfold log2Loop
    split
    · rename_i h0
      have : x = 1 := by omega
      subst this
      have : Nat.log2 1 = 0 := by decide
      rw [this]
      rfl
    · rename_i h0
      rw [log2Loop_spec fuel (x / 2) (y + 1) (by rw [Nat.pow_succ] at h; omega) (by omega)]
      rw [Nat.log2_def x, if_pos (by omega)]
      omega

/-- **C29 (log2).** For every non-zero 64-bit word, `log2` is the floor of the binary logarithm. -/
theorem C29_log2 (x : BitVec 64) (hx : x ≠ 0#64) :
    2 ^ log2W x ≤ x.toNat ∧ x.toNat < 2 ^ (log2W x + 1) := by
  have hx0 : x.toNat ≠ 0 := fun h' => hx (BitVec.eq_of_toNat_eq (by simpa using h'))
  unfold log2W
  rw [log2Loop_spec 64 _ 0 x.isLt (by omega), Nat.zero_add]
  exact ⟨Nat.log2_self_le hx0, (Nat.log2_lt hx0).1 (Nat.lt_succ_self _)⟩

example : (5#64 : BitVec 64) ≠ 0#64 := by decide

theorem log2W_pow {k : Nat} (hk : k < 64) : log2W (BitVec.ofNat 64 (2 ^ k)) = k := by
  have hlt : 2 ^ k < 2 ^ 64 := Nat.pow_lt_pow_right (by omega) hk
  have hpos : 0 < 2 ^ k := Nat.pow_pos (by omega)
  unfold log2W
  rw [BitVec.toNat_ofNat, Nat.mod_eq_of_lt hlt, log2Loop_spec 64 _ 0 hlt hpos, Nat.log2_two_pow]
  omega

/-- **C29 (logN).** For bases `2^k` with `1 ≤ k < 64` and non-zero `x`, `logN` returns the floor of
the logarithm to that base. -/
theorem C29_logN (k : Nat) (hk : 1 ≤ k) (hk2 : k < 64) (x : BitVec 64) (hx : x ≠ 0#64) :
    ∃ r, Returns (fun n => logN n x (BitVec.ofNat 64 (2 ^ k))) r ∧
      (2 ^ k) ^ r ≤ x.toNat ∧ x.toNat < (2 ^ k) ^ (r + 1) := by
  have gen : ∀ (m : Nat) (x : BitVec 64) (y : Nat), x.toNat < 2 ^ m → x ≠ 0#64 →
      ∃ r, Returns (fun n => logNLoop (BitVec.ofNat 64 (2 ^ k)) n x y) (y + r) ∧
        (2 ^ k) ^ r ≤ x.toNat ∧ x.toNat < (2 ^ k) ^ (r + 1) := by
    intro m
    induction m with
    | zero =>
      intro x y h hx
      exact absurd (BitVec.eq_of_toNat_eq (by simpa using h)) hx
    | succ m ih =>
      intro x y h hx
      have hsh : (x >>> k).toNat = x.toNat / 2 ^ k := by
        rw [BitVec.toNat_ushiftRight, Nat.shiftRight_eq_div_pow]
      have hp : 0 < 2 ^ k := Nat.pow_pos (by omega)
      have hp2 : 2 ≤ 2 ^ k := by
        calc 2 = 2 ^ 1 := rfl
          _ ≤ 2 ^ k := Nat.pow_le_pow_right (by omega) hk
      by_cases h0 : x >>> k = 0#64
      · refine ⟨0, ⟨1, fun n hn => ?_⟩, ?_, ?_⟩
        · obtain ⟨n', rfl⟩ : ∃ n', n = n' + 1 := ⟨n - 1, by omega⟩
          simp [logNLoop, log2W_pow hk2, h0]
        · have hx0 : x.toNat ≠ 0 := fun h' => hx (BitVec.eq_of_toNat_eq (by simpa using h'))
          simp; omega
        · have : x.toNat / 2 ^ k = 0 := by rw [← hsh, h0]; rfl
          rw [Nat.div_eq_zero_iff] at this
          simp; omega
      · have hlt : (x >>> k).toNat < 2 ^ m := by
          rw [hsh, Nat.div_lt_iff_lt_mul hp]
          calc x.toNat < 2 ^ (m + 1) := h
            _ = 2 ^ m * 2 := Nat.pow_succ ..
            _ ≤ 2 ^ m * 2 ^ k := Nat.mul_le_mul_left _ hp2
        obtain ⟨r, ⟨n0, hr⟩, h1, h2⟩ := ih (x >>> k) (y + 1) hlt h0
        refine ⟨r + 1, ⟨n0 + 1, fun n hn => ?_⟩, ?_, ?_⟩
        · obtain ⟨n', rfl⟩ : ∃ n', n = n' + 1 := ⟨n - 1, by omega⟩
          have := hr n' (by omega)
          simp only [logNLoop, log2W_pow hk2, h0, if_false] at this ⊢
          rw [this]; congr 1; omega
        · rw [hsh, Nat.le_div_iff_mul_le hp] at h1
          rw [Nat.pow_succ]; exact h1
        · rw [hsh, Nat.div_lt_iff_lt_mul hp] at h2
          rw [Nat.pow_succ]; exact h2
  obtain ⟨r, h1, h2⟩ := gen 64 x 0 x.isLt hx
  rw [Nat.zero_add] at h1
  exact ⟨r, h1, h2⟩

/-- **C29, precondition of logN.** With base 1 (or 0) and a non-zero argument `logN` never returns. -/
theorem C29_logN_diverges (x n : BitVec 64) (hx : x ≠ 0#64) (hn : n.toNat ≤ 1) :
    Diverges (fun f => logN f x n) := by
  have hl : log2W n = 0 := by
    have : n.toNat / 2 = 0 := by omega
    unfold log2W log2Loop
    rw [if_pos this]
  intro f
  unfold logN
  suffices ∀ y, logNLoop n f x y = .timeout from this 0
  induction f with
  | zero => intro y; rfl
  | succ f ih => intro y; simp [logNLoop, hl, hx, ih]

example : (8#64 : BitVec 64) ≠ 0#64 ∧ (1#64 : BitVec 64).toNat ≤ 1 := by decide

/-! popcount -/

/-- number with the given bytes, lowest first -/
def ofBytes : List Nat → Nat
  | [] => 0
  | b :: bs => b + 256 * ofBytes bs

theorem lane_and {a m : Nat} (ha : a < 256) (hm : m < 256) (u M : Nat) :
    (a + 256 * u) &&& (m + 256 * M) = (a &&& m) + 256 * (u &&& M) := by
  have h1 : ((a + 256 * u) &&& (m + 256 * M)) % 2 ^ 8 = a &&& m := by
    rw [Nat.and_mod_two_pow]
    congr 1 <;> omega
  have h2 : ((a + 256 * u) &&& (m + 256 * M)) / 2 ^ 8 = u &&& M := by
    rw [Nat.and_div_two_pow]
    congr 1 <;> omega
  have h3 := Nat.div_add_mod ((a + 256 * u) &&& (m + 256 * M)) (2 ^ 8)
  rw [h1, h2] at h3
  omega

theorem lane_shift_and {a m s : Nat} (ha : a < 256) (hs : s ≤ 8) (hm : m < 2 ^ (8 - s)) (u M : Nat) :
    ((a + 256 * u) / 2 ^ s) &&& (m + 256 * M) = ((a / 2 ^ s) &&& m) + 256 * ((u / 2 ^ s) &&& M) := by
  have hp : 0 < 2 ^ s := Nat.pow_pos (by omega)
  have h256 : 2 ^ s * 2 ^ (8 - s) = 256 := by
    rw [← Nat.pow_add]; have : s + (8 - s) = 8 := by omega
    rw [this]
  have hm8 : m < 256 := by
    have : 2 ^ (8 - s) ≤ 256 := by rw [← h256]; exact Nat.le_mul_of_pos_left _ hp
    omega
  -- split the shifted number
  have e : (a + 256 * u) / 2 ^ s = (a / 2 ^ s + 2 ^ (8 - s) * (u % 2 ^ s)) + 256 * (u / 2 ^ s) := by
    have : a + 256 * u = a + 2 ^ s * (2 ^ (8 - s) * u) := by rw [← Nat.mul_assoc, h256]
    rw [this, Nat.add_mul_div_left _ _ hp]
    conv_lhs => rw [← Nat.mod_add_div u (2 ^ s)]
    rw [Nat.mul_add, ← Nat.mul_assoc (2 ^ (8 - s)), Nat.mul_comm (2 ^ (8 - s)) (2 ^ s), h256]
    omega
  have ha2 : a / 2 ^ s < 2 ^ (8 - s) := by
    rw [Nat.div_lt_iff_lt_mul hp, Nat.mul_comm, h256]; exact ha
  have hlt : a / 2 ^ s + 2 ^ (8 - s) * (u % 2 ^ s) < 256 := by
    have h1 : u % 2 ^ s + 1 ≤ 2 ^ s := Nat.mod_lt _ hp
    have h2 := Nat.mul_le_mul_left (2 ^ (8 - s)) h1
    rw [Nat.mul_comm (2 ^ (8 - s)) (2 ^ s), h256, Nat.mul_add, Nat.mul_one] at h2
    omega
  rw [e, lane_and hlt hm8]
  congr 1
  -- the bits carried over from the next byte are masked out
  have hmm : m = m % 2 ^ (8 - s) := (Nat.mod_eq_of_lt hm).symm
  apply Nat.eq_of_testBit_eq
  intro j
  rw [Nat.testBit_and, Nat.testBit_and]
  by_cases hj : j < 8 - s
  · congr 1
    have := Nat.testBit_mod_two_pow (a / 2 ^ s + 2 ^ (8 - s) * (u % 2 ^ s)) (8 - s) j
    rw [Nat.add_mul_mod_self_left, Nat.mod_eq_of_lt ha2] at this
    simpa [hj] using this.symm
  · have : m.testBit j = false :=
      Nat.testBit_lt_two_pow (lt_of_lt_of_le hm (Nat.pow_le_pow_right (by omega) (by omega)))
    simp [this]

theorem ofBytes_sub : ∀ (as bs : List Nat), as.length = bs.length →
    (∀ p ∈ as.zip bs, p.2 ≤ p.1) → ofBytes bs ≤ ofBytes as ∧
    ofBytes as - ofBytes bs = ofBytes (List.zipWith (fun a b => a - b) as bs)
  | [], [], _, _ => by simp [ofBytes]
  | a :: as, b :: bs, h, hp => by
    obtain ⟨h1, h2⟩ := ofBytes_sub as bs (by simpa using h) (fun p hp' => hp p (by simp [hp']))
    have := hp (a, b) (by simp)
    simp only [ofBytes, List.zipWith_cons_cons] at *
    omega

theorem ofBytes_and (m : Nat) (hm : m < 256) : ∀ (bs : List Nat), (∀ b ∈ bs, b < 256) →
    ofBytes bs &&& ofBytes (List.replicate bs.length m) = ofBytes (bs.map (fun b => b &&& m))
  | [], _ => by simp [ofBytes]
  | b :: bs, h => by
    simp only [List.length_cons, List.replicate_succ, ofBytes, List.map_cons]
    rw [lane_and (h b (by simp)) hm, ofBytes_and m hm bs (fun x hx => h x (by simp [hx]))]

theorem ofBytes_shift_and (m s : Nat) (hs : s ≤ 8) (hm : m < 2 ^ (8 - s)) : ∀ (bs : List Nat),
    (∀ b ∈ bs, b < 256) →
    (ofBytes bs / 2 ^ s) &&& ofBytes (List.replicate bs.length m) =
      ofBytes (bs.map (fun b => (b / 2 ^ s) &&& m))
  | [], _ => by simp [ofBytes]
  | b :: bs, h => by
    simp only [List.length_cons, List.replicate_succ, ofBytes, List.map_cons]
    rw [lane_shift_and (h b (by simp)) hs hm,
      ofBytes_shift_and m s hs hm bs (fun x hx => h x (by simp [hx]))]

theorem ofBytes_add : ∀ (as bs : List Nat), as.length = bs.length →
    ofBytes as + ofBytes bs = ofBytes (List.zipWith (fun a b => a + b) as bs)
  | [], [], _ => by simp [ofBytes]
  | a :: as, b :: bs, h => by
    have := ofBytes_add as bs (by simpa using h)
    simp only [ofBytes, List.zipWith_cons_cons] at *
    omega

theorem ofBytes_lt : ∀ (bs : List Nat), (∀ b ∈ bs, b < 256) → ofBytes bs < 256 ^ bs.length
  | [], _ => by simp [ofBytes]
  | b :: bs, h => by
    have h1 := ofBytes_lt bs (fun x hx => h x (by simp [hx]))
    have h2 := h b (by simp)
    simp only [ofBytes, List.length_cons, Nat.pow_succ]
    omega

/-- third step: adding the number shifted by a nibble, low nibbles only -/
theorem ofBytes_nibble : ∀ (bs : List Nat), (∀ b ∈ bs, b % 16 ≤ 4 ∧ b / 16 ≤ 4) →
    (ofBytes bs + ofBytes bs / 16) &&& ofBytes (List.replicate bs.length 15) =
      ofBytes (bs.map (fun b => b % 16 + b / 16))
  | [], _ => by simp [ofBytes]
  | b :: bs, h => by
    have hb := h b (by simp)
    have ih := ofBytes_nibble bs (fun x hx => h x (by simp [hx]))
    have hnib : ofBytes bs % 16 ≤ 4 := by
      cases bs with
      | nil => simp [ofBytes]
      | cons c cs =>
        have := h c (by simp)
        simp only [ofBytes]; omega
    simp only [List.length_cons, List.replicate_succ, ofBytes, List.map_cons]
    have e : b + 256 * ofBytes bs + (b + 256 * ofBytes bs) / 16 =
        (b + b / 16 + 16 * (ofBytes bs % 16)) + 256 * (ofBytes bs + ofBytes bs / 16) := by omega
    rw [e, lane_and (by omega) (by omega), ih]
    congr 1
    have : (15 : Nat) = 2 ^ 4 - 1 := rfl
    rw [this, Nat.and_two_pow_sub_one_eq_mod]
    omega

def bitsOf (b : Nat) : Nat := (List.range 8).countP (fun j => b.testBit j)

theorem byte_table : ∀ b, b < 256 →
    let c := b - ((b / 2) &&& 0x55)
    let d := (c &&& 0x33) + ((c / 4) &&& 0x33)
    c < 256 ∧ ((b / 2) &&& 0x55) ≤ b ∧ d % 16 ≤ 4 ∧ d / 16 ≤ 4 ∧ d < 256 ∧
      d % 16 + d / 16 = bitsOf b ∧ bitsOf b ≤ 8 := by decide +kernel

theorem bytes_of (x : Nat) (h : x < 2 ^ 64) : ∃ b0 b1 b2 b3 b4 b5 b6 b7,
    x = ofBytes [b0, b1, b2, b3, b4, b5, b6, b7] ∧ b0 < 256 ∧ b1 < 256 ∧ b2 < 256 ∧ b3 < 256 ∧
      b4 < 256 ∧ b5 < 256 ∧ b6 < 256 ∧ b7 < 256 := by
  refine ⟨x % 256, x / 256 % 256, x / 256 ^ 2 % 256, x / 256 ^ 3 % 256, x / 256 ^ 4 % 256,
    x / 256 ^ 5 % 256, x / 256 ^ 6 % 256, x / 256 ^ 7 % 256, ?_, ?_, ?_, ?_, ?_, ?_, ?_, ?_, ?_⟩
  · simp only [ofBytes]; omega
  all_goals exact Nat.mod_lt _ (by omega)

theorem testBit_byte {b : Nat} (hb : b < 256) (u j : Nat) :
    (b + 256 * u).testBit j = if j < 8 then b.testBit j else u.testBit (j - 8) := by
  have h1 : (b + 256 * u) % 2 ^ 8 = b := by omega
  have h2 : (b + 256 * u) / 2 ^ 8 = u := by omega
  split
  · rename_i hj
    have := Nat.testBit_mod_two_pow (b + 256 * u) 8 j
    rw [h1] at this
    simpa [hj] using this.symm
  · rename_i hj
    conv_rhs => rw [← h2, Nat.testBit_div_two_pow]
    congr 1; omega

theorem countBits_ofBytes : ∀ (bs : List Nat), (∀ b ∈ bs, b < 256) →
    (List.range (8 * bs.length)).countP (fun j => (ofBytes bs).testBit j) = (bs.map bitsOf).sum
  | [], _ => by simp
  | b :: bs, h => by
    have ih := countBits_ofBytes bs (fun x hx => h x (by simp [hx]))
    have e : 8 * (b :: bs).length = 8 + 8 * bs.length := by simp; omega
    rw [e, List.range_add, List.countP_append, List.countP_map]
    simp only [List.map_cons, List.sum_cons]
    congr 1
    · unfold bitsOf
      apply List.countP_congr
      intro j hj
      have : j < 8 := List.mem_range.1 hj
      simp only [ofBytes]
      rw [testBit_byte (h b (by simp)), if_pos this]
    · rw [← ih]
      apply List.countP_congr
      intro j _
      simp only [ofBytes, Function.comp]
      rw [testBit_byte (h b (by simp)), if_neg (by omega)]
      simp

theorem mul_lanes (d0 d1 d2 d3 d4 d5 d6 d7 : Nat) (h0 : d0 ≤ 8) (h1 : d1 ≤ 8) (h2 : d2 ≤ 8)
    (h3 : d3 ≤ 8) (h4 : d4 ≤ 8) (h5 : d5 ≤ 8) (h6 : d6 ≤ 8) (h7 : d7 ≤ 8) :
    (d0 + 256 * (d1 + 256 * (d2 + 256 * (d3 + 256 * (d4 + 256 * (d5 + 256 * (d6 + 256 * (d7 +
        256 * 0)))))))) * 0x0101010101010101 % 2 ^ 64 / 2 ^ 56 =
      d0 + (d1 + (d2 + (d3 + (d4 + (d5 + (d6 + (d7 + 0))))))) := by
  have e : (d0 + 256 * (d1 + 256 * (d2 + 256 * (d3 + 256 * (d4 + 256 * (d5 + 256 * (d6 + 256 * (d7 +
        256 * 0)))))))) * 0x0101010101010101 =
      (d0 + 2 ^ 8 * (d0 + d1) + 2 ^ 16 * (d0 + d1 + d2) + 2 ^ 24 * (d0 + d1 + d2 + d3) +
        2 ^ 32 * (d0 + d1 + d2 + d3 + d4) + 2 ^ 40 * (d0 + d1 + d2 + d3 + d4 + d5) +
        2 ^ 48 * (d0 + d1 + d2 + d3 + d4 + d5 + d6)) +
      2 ^ 56 * (d0 + d1 + d2 + d3 + d4 + d5 + d6 + d7) +
      2 ^ 64 * ((d1 + d2 + d3 + d4 + d5 + d6 + d7) + 2 ^ 8 * (d2 + d3 + d4 + d5 + d6 + d7) +
        2 ^ 16 * (d3 + d4 + d5 + d6 + d7) + 2 ^ 24 * (d4 + d5 + d6 + d7) +
        2 ^ 32 * (d5 + d6 + d7) + 2 ^ 40 * (d6 + d7) + 2 ^ 48 * d7) := by
    ring
  have hlow : d0 + 2 ^ 8 * (d0 + d1) + 2 ^ 16 * (d0 + d1 + d2) + 2 ^ 24 * (d0 + d1 + d2 + d3) +
        2 ^ 32 * (d0 + d1 + d2 + d3 + d4) + 2 ^ 40 * (d0 + d1 + d2 + d3 + d4 + d5) +
        2 ^ 48 * (d0 + d1 + d2 + d3 + d4 + d5 + d6) < 2 ^ 56 := by omega
  rw [e, Nat.add_mul_mod_self_left]
  generalize d0 + 2 ^ 8 * (d0 + d1) + 2 ^ 16 * (d0 + d1 + d2) + 2 ^ 24 * (d0 + d1 + d2 + d3) +
        2 ^ 32 * (d0 + d1 + d2 + d3 + d4) + 2 ^ 40 * (d0 + d1 + d2 + d3 + d4 + d5) +
        2 ^ 48 * (d0 + d1 + d2 + d3 + d4 + d5 + d6) = L at hlow
  rw [Nat.mod_eq_of_lt (by omega), Nat.add_mul_div_left _ _ (by omega), Nat.div_eq_of_lt hlow]
  omega

/-- **C29 (popcount).** For every 64-bit word the bit trick returns the number of set bits. -/
theorem C29_popcount (x : BitVec 64) :
    (popcount x).toNat = (List.range 64).countP (fun j => x.getLsbD j) := by
  obtain ⟨b0, b1, b2, b3, b4, b5, b6, b7, hx, h0, h1, h2, h3, h4, h5, h6, h7⟩ := bytes_of x.toNat x.isLt
  have hall : ∀ b ∈ [b0, b1, b2, b3, b4, b5, b6, b7], b < 256 := by
    intro b hb; simp at hb; rcases hb with h|h|h|h|h|h|h|h <;> rw [h] <;> assumption
  have hspec := countBits_ofBytes [b0, b1, b2, b3, b4, b5, b6, b7] hall
  rw [← hx] at hspec
  have hspec' : (List.range 64).countP (fun j => x.getLsbD j) =
      ([b0, b1, b2, b3, b4, b5, b6, b7].map bitsOf).sum := by
    rw [← hspec]
    simp [BitVec.testBit_toNat]
  rw [hspec']
  -- step 1
  let cs := [b0, b1, b2, b3, b4, b5, b6, b7].map (fun b => b - ((b / 2) &&& 0x55))
  let ds := cs.map (fun c => (c &&& 0x33) + ((c / 4) &&& 0x33))
  have hcs : ∀ c ∈ cs, c < 256 := by
    intro c hc
    obtain ⟨b, hb, rfl⟩ := List.mem_map.1 hc
    exact (byte_table b (hall b hb)).1
  have hds : ∀ d ∈ ds, d % 16 ≤ 4 ∧ d / 16 ≤ 4 ∧ d < 256 := by
    intro d hd
    obtain ⟨c, hc, rfl⟩ := List.mem_map.1 hd
    obtain ⟨b, hb, rfl⟩ := List.mem_map.1 hc
    have := byte_table b (hall b hb)
    exact ⟨this.2.2.1, this.2.2.2.1, this.2.2.2.2.1⟩
  have s1 : (x - ((x >>> 1) &&& 0x5555555555555555#64)).toNat = ofBytes cs := by
    have ha : ((x >>> 1) &&& 0x5555555555555555#64).toNat =
        ofBytes ([b0, b1, b2, b3, b4, b5, b6, b7].map (fun b => (b / 2) &&& 0x55)) := by
      rw [BitVec.toNat_and, BitVec.toNat_ushiftRight, Nat.shiftRight_eq_div_pow, hx]
      exact ofBytes_shift_and 0x55 1 (by omega) (by decide) _ hall
    have hsub := ofBytes_sub [b0, b1, b2, b3, b4, b5, b6, b7]
      ([b0, b1, b2, b3, b4, b5, b6, b7].map (fun b => (b / 2) &&& 0x55)) (by simp) (by
        intro p hp
        rw [List.zip_map_right] at hp
        obtain ⟨q, hq, rfl⟩ := List.mem_map.1 hp
        have : q.1 = q.2 ∧ q.1 ∈ [b0, b1, b2, b3, b4, b5, b6, b7] := by
          simp at hq; rcases hq with h|h|h|h|h|h|h|h <;> rw [h] <;> simp
        show (q.2 / 2 &&& 0x55) ≤ q.1
        rw [← this.1]
        exact (byte_table q.1 (hall _ this.2)).2.1)
    have hle : ((x >>> 1) &&& 0x5555555555555555#64).toNat ≤ x.toNat := by rw [ha, hx]; exact hsub.1
    rw [BitVec.toNat_sub_of_le (BitVec.le_def.2 hle), ha, hx, hsub.2]
    simp [cs]
  have s2 : ((x - ((x >>> 1) &&& 0x5555555555555555#64) &&& 0x3333333333333333#64) +
      ((x - ((x >>> 1) &&& 0x5555555555555555#64)) >>> 2 &&& 0x3333333333333333#64)).toNat =
      ofBytes ds := by
    have e1 := ofBytes_and 0x33 (by decide) cs hcs
    have e2 := ofBytes_shift_and 0x33 2 (by omega) (by decide) cs hcs
    have e3 := ofBytes_add (cs.map (fun c => c &&& 0x33)) (cs.map (fun c => (c / 2 ^ 2) &&& 0x33))
      (by simp)
    rw [BitVec.toNat_add, BitVec.toNat_and, BitVec.toNat_and, BitVec.toNat_ushiftRight,
      Nat.shiftRight_eq_div_pow, s1]
    have m1 : (0x3333333333333333#64 : BitVec 64).toNat = ofBytes (List.replicate cs.length 0x33) := by
      simp [cs, ofBytes]
    rw [m1, e1, e2, e3]
    have e4 : List.zipWith (fun a b => a + b) (cs.map (fun c => c &&& 0x33))
        (cs.map (fun c => (c / 2 ^ 2) &&& 0x33)) = ds := by
      simp [cs, ds]
    rw [e4]
    apply Nat.mod_eq_of_lt
    have := ofBytes_lt ds (fun d hd => (hds d hd).2.2)
    have hl : ds.length = 8 := by simp [ds, cs]
    rw [hl] at this
    exact lt_of_lt_of_le this (by decide)
  -- step 3 and the multiplication
  have hfin : ∀ v : BitVec 64, v.toNat = ofBytes ds →
      ((((v + (v >>> 4)) &&& 0x0F0F0F0F0F0F0F0F#64) * 0x0101010101010101#64) >>> 56).toNat =
        ([b0, b1, b2, b3, b4, b5, b6, b7].map bitsOf).sum := by
    intro v hv
    have hlen : ds.length = 8 := by simp [ds, cs]
    have hsmall : ofBytes ds + ofBytes ds / 16 < 2 ^ 64 := by
      have : ofBytes ds ≤ 0x4444444444444444 := by
        have g : ∀ l : List Nat, (∀ d ∈ l, d % 16 ≤ 4 ∧ d / 16 ≤ 4 ∧ d < 256) →
            ofBytes l ≤ ofBytes (List.replicate l.length 0x44) := by
          intro l
          induction l with
          | nil => intro _; simp [ofBytes]
          | cons a l ih =>
            intro hl
            have h1 := ih (fun d hd => hl d (by simp [hd]))
            have h2 := hl a (by simp)
            simp only [ofBytes, List.length_cons, List.replicate_succ]
            omega
        have := g ds hds
        rw [hlen] at this
        simpa [ofBytes, List.replicate] using this
      omega
    have e3 := ofBytes_nibble ds (fun d hd => ⟨(hds d hd).1, (hds d hd).2.1⟩)
    have hmap : ds.map (fun b => b % 16 + b / 16) = [b0, b1, b2, b3, b4, b5, b6, b7].map bitsOf := by
      simp only [ds, cs, List.map_map]
      apply List.map_congr_left
      intro b hb
      exact (byte_table b (hall b hb)).2.2.2.2.2.1
    have hv3 : ((v + (v >>> 4)) &&& 0x0F0F0F0F0F0F0F0F#64).toNat =
        ofBytes ([b0, b1, b2, b3, b4, b5, b6, b7].map bitsOf) := by
      rw [BitVec.toNat_and, BitVec.toNat_add, BitVec.toNat_ushiftRight, Nat.shiftRight_eq_div_pow, hv]
      have m1 : (0x0F0F0F0F0F0F0F0F#64 : BitVec 64).toNat = ofBytes (List.replicate ds.length 15) := by
        rw [hlen]; simp [ofBytes, List.replicate]
      rw [m1, Nat.mod_eq_of_lt hsmall, ← hmap]
      exact e3
    have c0 := (byte_table b0 h0).2.2.2.2.2.2
    have c1 := (byte_table b1 h1).2.2.2.2.2.2
    have c2 := (byte_table b2 h2).2.2.2.2.2.2
    have c3 := (byte_table b3 h3).2.2.2.2.2.2
    have c4 := (byte_table b4 h4).2.2.2.2.2.2
    have c5 := (byte_table b5 h5).2.2.2.2.2.2
    have c6 := (byte_table b6 h6).2.2.2.2.2.2
    have c7 := (byte_table b7 h7).2.2.2.2.2.2
    rw [BitVec.toNat_ushiftRight, Nat.shiftRight_eq_div_pow, BitVec.toNat_mul, hv3]
    have m2 : (0x0101010101010101#64 : BitVec 64).toNat = 0x0101010101010101 := by decide
    rw [m2]
    simp only [List.map_cons, List.map_nil, ofBytes, List.sum_cons, List.sum_nil]
    generalize bitsOf b0 = d0 at *
    generalize bitsOf b1 = d1 at *
    generalize bitsOf b2 = d2 at *
    generalize bitsOf b3 = d3 at *
    generalize bitsOf b4 = d4 at *
    generalize bitsOf b5 = d5 at *
    generalize bitsOf b6 = d6 at *
    generalize bitsOf b7 = d7 at *
    clear hspec hspec' hall hcs hds s1 s2 hv3 hmap e3 hsmall hlen hv hx
    exact mul_lanes d0 d1 d2 d3 d4 d5 d6 d7 c0 c1 c2 c3 c4 c5 c6 c7
  exact hfin _ s2

/-! ## C30 -/

/-- Specification: put the fields together again with the separator between them. -/
def join {α : Type} (d : α) : List (List α) → List α
  | [] => []
  | [f] => f
  | f :: g :: fs => f ++ d :: join d (g :: fs)

theorem getline_spec {α : Type} [DecidableEq α] (d : α) : ∀ s : List α,
    d ∉ (getline d s).1 ∧
    ((getline d s).2.2 = true → s = (getline d s).1) ∧
    ((getline d s).2.2 = false → s = (getline d s).1 ++ d :: (getline d s).2.1)
  | [] => by simp [getline]
  | c :: cs => by
    obtain ⟨h1, h2, h3⟩ := getline_spec d cs
    unfold getline
    split
    · rename_i h; subst h; simp
    · rename_i h
      refine ⟨by simp [h1, Ne.symm h], fun he => ?_, fun he => ?_⟩
      · simp only at he ⊢; rw [← h2 he]
      · simp only at he ⊢
        conv_lhs => rw [h3 he]
        simp

theorem splitLoop_ne_nil {α : Type} [DecidableEq α] (d : α) (s : List α) :
    splitLoop d true s ≠ [] := by
  rw [splitLoop]; simp only [Bool.not_true, Bool.false_and]; split <;> simp

/-- **C30.** Splitting (keeping empty fields) yields separator-free fields which, joined with the
separator, give back exactly the input line. -/
theorem C30_split {α : Type} [DecidableEq α] (d : α) (s : List α) :
    join d (splitLoop d true s) = s ∧ ∀ f ∈ splitLoop d true s, d ∉ f := by
  induction hn : s.length using Nat.strongRecOn generalizing s with
  | _ n ih =>
    obtain ⟨h1, h2, h3⟩ := getline_spec d s
    rw [splitLoop]
    simp only [Bool.not_true, Bool.false_and]
    split
    · rename_i he
      simp only [Bool.false_eq_true, if_false, join, List.mem_singleton]
      exact ⟨(h2 he).symm, by rintro f rfl; exact h1⟩
    · rename_i he
      have he' : (getline d s).2.2 = false := by simpa using he
      have hlt := getline_rest_lt d s he'
      obtain ⟨i1, i2⟩ := ih _ (by omega) (getline d s).2.1 rfl
      have hne := splitLoop_ne_nil d (getline d s).2.1
      obtain ⟨g, gs, hg⟩ := List.exists_cons_of_ne_nil hne
      constructor
      · simp only [Bool.false_eq_true, if_false, hg, List.cons_append, List.nil_append, join]
        rw [← hg, i1]
        exact (h3 he').symm
      · intro f hf
        simp only [Bool.false_eq_true, if_false, List.cons_append, List.nil_append,
          List.mem_cons] at hf
        rcases hf with rfl | hf
        · exact h1
        · exact i2 f hf

/-- **C30 (`no_empties`).** The other mode returns the non-empty fields of the first in order. -/
theorem C30_split_no_empties {α : Type} [DecidableEq α] (d : α) (s : List α) :
    splitLoop d false s = (splitLoop d true s).filter (fun f => !f.isEmpty) := by
  induction hn : s.length using Nat.strongRecOn generalizing s with
  | _ n ih =>
    rw [splitLoop]
    conv_rhs => rw [splitLoop]
    simp only [Bool.not_true, Bool.false_and, Bool.not_false, Bool.true_and, Bool.false_eq_true,
      if_false]
    split
    · split <;> simp_all
    · rename_i he
      have he' : (getline d s).2.2 = false := by simpa using he
      have hlt := getline_rest_lt d s he'
      rw [ih _ (by omega) (getline d s).2.1 rfl]
      split <;> simp_all

example : splitLoop ',' true "a,,b".toList = ["a".toList, [], "b".toList] := by
  simp [splitLoop, getline]

/-! ## C28 -/

theorem sortInner_spec {β : Type} (v : Nat) : ∀ (A B : List (Nat × β)) (c : Nat) (e : β),
    ∃ A1 A2 : List (Nat × β), A = A1 ++ A2 ∧ (∀ p ∈ A2, v < p.1) ∧ (∀ p, A1.getLast? = some p → p.1 ≤ v) ∧
      ∃ c' e', sortInner v A.length (A.map (·.1) ++ c :: B.map (·.1)) (A.map (·.2) ++ e :: B.map (·.2)) =
        some (A1.length, A1.map (·.1) ++ c' :: ((A2 ++ B).map (·.1)),
          A1.map (·.2) ++ e' :: ((A2 ++ B).map (·.2))) := by
  intro A
  induction hn : A.length using Nat.strongRecOn generalizing A with
  | _ n ih =>
    intro B c e
    subst hn
    rcases List.eq_nil_or_concat A with h | ⟨A', y, h⟩
    · subst h
      exact ⟨[], [], rfl, by simp, by simp, c, e, by simp [sortInner]⟩
    · rw [List.concat_eq_append] at h
      subst h
      by_cases hv : v < y.1
      · obtain ⟨A1, A2, hA, hgt, hle, c', e', hr⟩ := ih A'.length (by simp) A' rfl (y :: B) y.1 y.2
        refine ⟨A1, A2 ++ [y], by rw [hA]; simp, ?_, hle, c', e', ?_⟩
        · intro p hp
          rcases List.mem_append.1 hp with hp | hp
          · exact hgt p hp
          · simp at hp; subst hp; exact hv
        · have : (A' ++ [y]).length = A'.length + 1 := by simp
          rw [this, sortInner]
          have g1 : ((A' ++ [y]).map (·.1) ++ c :: B.map (·.1))[A'.length]? = some y.1 := by
            rw [List.getElem?_append_left (by simp)]
            simp
          have g2 : ((A' ++ [y]).map (·.2) ++ e :: B.map (·.2))[A'.length]? = some y.2 := by
            rw [List.getElem?_append_left (by simp)]
            simp
          rw [g1, g2]
          simp only [hv, if_true]
          have t1 : ((A' ++ [y]).map (·.1) ++ c :: B.map (·.1)).set (A'.length + 1) y.1 =
              A'.map (·.1) ++ y.1 :: ((y :: B).map (·.1)) := by
            rw [List.set_append_right _ _ (by simp)]
            simp
          have t2 : ((A' ++ [y]).map (·.2) ++ e :: B.map (·.2)).set (A'.length + 1) y.2 =
              A'.map (·.2) ++ y.2 :: ((y :: B).map (·.2)) := by
            rw [List.set_append_right _ _ (by simp)]
            simp
          rw [t1, t2, hr]
          simp
      · refine ⟨A' ++ [y], [], by simp, by simp, ?_, c, e, ?_⟩
        · intro p hp
          simp at hp
          subst hp; omega
        · have : (A' ++ [y]).length = A'.length + 1 := by simp
          rw [this, sortInner]
          have g1 : ((A' ++ [y]).map (·.1) ++ c :: B.map (·.1))[A'.length]? = some y.1 := by
            rw [List.getElem?_append_left (by simp)]
            simp
          have g2 : ((A' ++ [y]).map (·.2) ++ e :: B.map (·.2))[A'.length]? = some y.2 := by
            rw [List.getElem?_append_left (by simp)]
            simp
          rw [g1, g2]
          simp [hv]

theorem sortRound_spec {β : Type} (A : List (Nat × β)) (x : Nat × β) (B : List (Nat × β))
    (hlen : A.length < 32768) (hs : A.Pairwise (fun p q => p.1 ≤ q.1)) :
    ∃ A' : List (Nat × β), sortRound A.length ((A ++ x :: B).map (·.1)) ((A ++ x :: B).map (·.2)) =
        some ((A' ++ B).map (·.1), (A' ++ B).map (·.2)) ∧ A'.length = A.length + 1 ∧
      A'.Pairwise (fun p q => p.1 ≤ q.1) ∧
      ∀ k, A'.filter (fun p => p.1 == k) = (A ++ [x]).filter (fun p => p.1 == k) := by
  obtain ⟨A1, A2, hA, hgt, hle, c', e', hr⟩ := sortInner_spec x.1 A B x.1 x.2
  refine ⟨A1 ++ x :: A2, ?_, ?_, ?_, ?_⟩
  · unfold sortRound
    have g1 : ((A ++ x :: B).map (·.1))[A.length]? = some x.1 := by simp
    have g2 : ((A ++ x :: B).map (·.2))[A.length]? = some x.2 := by simp
    rw [g1, g2]
    have hts : toShort A.length = Int.ofNat A.length := by
      unfold toShort; rw [if_pos hlen]; rfl
    simp only [hts]
    simp only [List.map_append, List.map_cons] at hr ⊢
    rw [hr]
    simp only
    rw [List.set_append_right _ _ (by simp), List.set_append_right _ _ (by simp)]
    simp
  · rw [hA]; simp; omega
  · rw [hA] at hs
    obtain ⟨hs1, hs2, hs12⟩ := List.pairwise_append.1 hs
    rw [List.pairwise_append]
    refine ⟨hs1, ?_, ?_⟩
    · rw [List.pairwise_cons]
      exact ⟨fun p hp => le_of_lt (hgt p hp), hs2⟩
    · intro p hp q hq
      have hpx : p.1 ≤ x.1 := by
        rcases List.eq_nil_or_concat A1 with h | ⟨A0, y, h⟩
        · subst h; simp at hp
        · rw [List.concat_eq_append] at h
          subst h
          have hy := hle y (by simp)
          rcases List.mem_append.1 hp with h | h
          · have := (List.pairwise_append.1 hs1).2.2 p h y (by simp)
            omega
          · simp at h; subst h; exact hy
      rcases List.mem_cons.1 hq with h | h
      · subst h; exact hpx
      · exact hs12 p hp q h
  · intro k
    rw [hA]
    simp only [List.filter_append, List.filter_cons]
    by_cases hk : x.1 = k
    · have : A2.filter (fun p => p.1 == k) = [] := by
        rw [List.filter_eq_nil_iff]
        intro p hp
        have := hgt p hp
        simp; omega
      simp [hk, this]
    · simp [hk]

theorem sortOuter_spec {β : Type} : ∀ (B A : List (Nat × β)), A.length + B.length ≤ 32768 →
    A.Pairwise (fun p q => p.1 ≤ q.1) →
    ∃ R : List (Nat × β), sortOuter B.length A.length ((A ++ B).map (·.1)) ((A ++ B).map (·.2)) =
        some (R.map (·.1), R.map (·.2)) ∧ R.length = A.length + B.length ∧
      R.Pairwise (fun p q => p.1 ≤ q.1) ∧
      ∀ k, R.filter (fun p => p.1 == k) = (A ++ B).filter (fun p => p.1 == k)
  | [], A, h, hs => ⟨A, by simp [sortOuter], by simp, hs, by simp⟩
  | x :: B, A, h, hs => by
    obtain ⟨A', hr, hl, hs', hf⟩ := sortRound_spec A x B (by simp at h; omega) hs
    obtain ⟨R, hr2, hl2, hs2, hf2⟩ := sortOuter_spec B A' (by simp at h; omega) hs'
    refine ⟨R, ?_, by simp; omega, hs2, fun k => ?_⟩
    · simp only [List.length_cons, sortOuter]
      rw [hr]
      simp only
      rw [← hl]
      exact hr2
    · rw [hf2 k, List.filter_append, hf k, ← List.filter_append]
      simp

/-- **C28.** For every array of at most 32768 elements with attached data: the sort returns arrays of
the same length, the keys are in ascending order, and for every key the sequence of attached data is
unchanged (so the pairs are permuted and the sort is stable). -/
theorem C28_sort_with_data {β : Type} (z : List (Nat × β)) (h : z.length ≤ 32768) :
    ∃ R : List (Nat × β), sortWithData (z.map (·.1)) (z.map (·.2)) = some (R.map (·.1), R.map (·.2)) ∧
      (R.map (·.1)).Pairwise (· ≤ ·) ∧ R.Perm z ∧
      ∀ k, R.filter (fun p => p.1 == k) = z.filter (fun p => p.1 == k) := by
  have main : ∃ R : List (Nat × β), sortWithData (z.map (·.1)) (z.map (·.2)) = some (R.map (·.1), R.map (·.2)) ∧
      R.Pairwise (fun p q => p.1 ≤ q.1) ∧
      ∀ k, R.filter (fun p => p.1 == k) = z.filter (fun p => p.1 == k) := by
    cases z with
    | nil => exact ⟨[], by simp [sortWithData, sortOuter], by simp, by simp⟩
    | cons x z =>
      obtain ⟨R, hr, hl, hs, hf⟩ := sortOuter_spec z [x] (by simp at h ⊢; omega) (by simp)
      refine ⟨R, ?_, hs, by simpa using hf⟩
      have e : ((x :: z).map (·.1)).length - 1 = z.length := by simp
      unfold sortWithData
      rw [e]
      simpa using hr
  obtain ⟨R, hr, hs, hf⟩ := main
  refine ⟨R, hr, List.pairwise_map.2 hs, ?_, hf⟩
  classical
  rw [List.perm_iff_count]
  intro p
  have h1 : ∀ l : List (Nat × β), l.count p = (l.filter (fun q => q.1 == p.1)).count p := by
    intro l
    rw [List.count_filter]
    simp
  rw [h1 R, h1 z, hf]

/-- **C28 (keys only).** `static_insertion_sort` returns the ascending permutation of its input. -/
theorem C28_sort (arr : List Nat) (h : arr.length ≤ 32768) :
    ∃ r, sortKeys arr = some r ∧ r.Pairwise (· ≤ ·) ∧ r.Perm arr := by
  obtain ⟨R, hr, hs, hp, _⟩ := C28_sort_with_data (arr.map (fun k => (k, ()))) (by simpa using h)
  refine ⟨R.map (·.1), ?_, hs, ?_⟩
  · have e1 : (arr.map (fun k => (k, ()))).map (·.1) = arr := by simp [Function.comp_def]
    have e2 : (arr.map (fun k => (k, ()))).map (·.2) = List.replicate arr.length () := by
      simp [Function.comp_def]
    rw [e1, e2] at hr
    simp [sortKeys, hr]
  · have := hp.map (·.1)
    simpa [Function.comp_def] using this

example : sortWithData [3, 1, 2] ["c", "a", "b"] = some ([1, 2, 3], ["a", "b", "c"]) := by decide

theorem sortInner_length {β : Type} (v : Nat) : ∀ (h : Nat) (arr : List Nat) (dat : List β) r,
    sortInner v h arr dat = some r → r.2.1.length = arr.length ∧ r.2.2.length = dat.length
  | 0, arr, dat, r, hr => by
    simp [sortInner] at hr
    subst hr; simp
  | h + 1, arr, dat, r, hr => by
    unfold sortInner at hr
    split at hr
    · split at hr
      · have := sortInner_length v h _ _ r hr
        simpa using this
      · injection hr with hr; subst hr; simp
    · cases hr

/-- **C28, limit.** The template accepts lengths up to 65534, but the loop variable `short hole`
overflows: for every array longer than 32768 the sort accesses memory out of bounds. -/
theorem C28_sort_large_violated {β : Type} (arr : List Nat) (dat : List β)
    (h : 32768 < arr.length) : sortWithData arr dat = none := by
  have gen : ∀ (n i : Nat) (arr : List Nat) (dat : List β), i ≤ 32768 → 32768 < i + n →
      sortOuter n i arr dat = none := by
    intro n
    induction n with
    | zero => intro i arr dat h1 h2; omega
    | succ n ih =>
      intro i arr dat h1 h2
      simp only [sortOuter]
      by_cases hi : i = 32768
      · subst hi
        have : sortRound 32768 arr dat = none := by
          unfold sortRound
          have : toShort 32768 = Int.negSucc 32767 := by decide
          rw [this]
          split <;> rfl
        rw [this]
      · cases hr : sortRound i arr dat with
        | none => rfl
        | some r => exact ih (i + 1) r.1 r.2 (by omega) (by omega)
  exact gen _ _ _ _ (by omega) (by omega)

end Misc
end Verif
