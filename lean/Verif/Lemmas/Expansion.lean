import Verif.Model.Expansion
import Verif.Lemmas.EFT
import Mathlib.Data.Nat.Factorization.Basic
import Mathlib.Data.Sign.Basic

/-!
# Facts about expansions
-/
namespace Verif
namespace FP

/-! ### Lowest digits -/

/-- The lowest digit of `y` that is not zero has the weight `2 ^ k`. -/
def IsLsb (k : Int) (y : ℚ) : Prop := ∃ m : Int, Odd m ∧ y = m * 2 ^ k

theorem IsLsb.mul {k : Int} {y : ℚ} (h : IsLsb k y) : Mul k y := by
  obtain ⟨m, _, h⟩ := h
  exact ⟨m, h⟩

theorem IsLsb.ne_zero {k : Int} {y : ℚ} (h : IsLsb k y) : y ≠ 0 := by
  obtain ⟨m, hm, rfl⟩ := h
  have : m ≠ 0 := by rintro rfl; simp at hm
  exact mul_ne_zero (by exact_mod_cast this) (two_zpow_pos k).ne'

theorem IsLsb.neg {k : Int} {y : ℚ} (h : IsLsb k y) : IsLsb k (-y) := by
  obtain ⟨m, hm, rfl⟩ := h
  exact ⟨-m, hm.neg, by push_cast; ring⟩

theorem IsLsb.le_abs {k : Int} {y : ℚ} (h : IsLsb k y) : 2 ^ k ≤ |y| := h.mul.le_abs h.ne_zero

theorem IsLsb.max {k j : Int} {y : ℚ} (h : IsLsb k y) (hj : Mul j y) : j ≤ k := by
  by_contra hc
  obtain ⟨m, hm, rfl⟩ := h
  obtain ⟨n, hn⟩ := hj
  obtain ⟨d, hd⟩ := Int.eq_ofNat_of_zero_le (show 0 ≤ j - k - 1 by omega)
  have e : j = k + 1 + d := by omega
  rw [e, zpow_add_nat, two_zpow_succ] at hn
  have h1 : (m : ℚ) = n * (2 * 2 ^ d) := mul_right_cancel₀ (two_zpow_pos k).ne' (by rw [hn]; ring)
  have h2 : m = n * (2 * 2 ^ d) := by exact_mod_cast h1
  rw [h2] at hm
  have h3 : Even (n * (2 * 2 ^ d)) := ⟨n * 2 ^ d, by ring⟩
  exact (Int.not_even_iff_odd.mpr hm) h3

theorem exists_lsb {j : Int} {y : ℚ} (h : Mul j y) (h0 : y ≠ 0) : ∃ k, IsLsb k y ∧ j ≤ k := by
  obtain ⟨m, rfl⟩ := h
  have hm : m ≠ 0 := by rintro rfl; simp at h0
  obtain ⟨d, n, hn, e⟩ := Nat.exists_eq_two_pow_mul_odd (Int.natAbs_ne_zero.mpr hm)
  have hodd : ∃ n' : Int, Odd n' ∧ m = 2 ^ d * n' := by
    rcases Int.natAbs_eq m with h | h
    · exact ⟨n, by exact_mod_cast hn, by rw [h, e]; push_cast; ring⟩
    · exact ⟨-n, by exact_mod_cast (show Odd (n : Int) by exact_mod_cast hn).neg, by rw [h, e]; push_cast; ring⟩
  obtain ⟨n', hn', rfl⟩ := hodd
  exact ⟨j + d, ⟨n', hn', by rw [zpow_add_nat]; push_cast; ring⟩, by omega⟩

theorem Rep.lsb {p : Nat} {y : ℚ} (h : Rep p y) (h0 : y ≠ 0) : ∃ k, IsLsb k y := by
  obtain ⟨k, h1, _⟩ := h
  obtain ⟨l, hl, _⟩ := exists_lsb h1 h0
  exact ⟨l, hl⟩

theorem Rep.lt_lsb {p : Nat} {y : ℚ} (h : Rep p y) {k : Int} (hk : IsLsb k y) : |y| < 2 ^ (k + p) := by
  obtain ⟨l, h1, h2⟩ := h
  exact h2.trans_le (two_zpow_le (by have := hk.max h1; omega))

/-! ### Good expansions -/

/-- Sum of the magnitudes. -/
def asum (l : List ℚ) : ℚ := (l.map fun x => |x|).sum

@[simp] theorem asum_nil : asum [] = 0 := rfl

@[simp] theorem asum_cons (x : ℚ) (l : List ℚ) : asum (x :: l) = |x| + asum l := by simp [asum]

theorem asum_append (l m : List ℚ) : asum (l ++ m) = asum l + asum m := by simp [asum]

theorem asum_nonneg (l : List ℚ) : 0 ≤ asum l := by
  induction l with
  | nil => simp
  | cons x l ih => rw [asum_cons]; have := abs_nonneg x; linarith

/-- Every component of `l` is large, compared to `S` and all components before it: their magnitudes add up to at most three quarters of
the lowest digit of the component. -/
def GoodFrom (S : ℚ) : List ℚ → Prop
  | [] => True
  | y :: l => (∀ k, IsLsb k y → S ≤ 3 / 4 * 2 ^ k) ∧ GoodFrom (S + |y|) l

theorem GoodFrom.at {S : ℚ} {l : List ℚ} (h : GoodFrom S l) {l1 l2 : List ℚ} {y : ℚ} (e : l = l1 ++ y :: l2) {k : Int} (hk : IsLsb k y) :
    S + asum l1 ≤ 3 / 4 * 2 ^ k := by
  induction l1 generalizing S l with
  | nil => subst e; simpa using h.1 k hk
  | cons x l1 ih =>
    subst e
    have := ih h.2 rfl
    rw [asum_cons]; linarith

theorem GoodFrom.mem {S : ℚ} {l : List ℚ} (h : GoodFrom S l) {y : ℚ} (hy : y ∈ l) {k : Int} (hk : IsLsb k y) : S ≤ 3 / 4 * 2 ^ k := by
  obtain ⟨l1, l2, e⟩ := List.append_of_mem hy
  have := h.at e hk
  linarith [asum_nonneg l1]

theorem GoodFrom.mono {S T : ℚ} {l : List ℚ} (h : GoodFrom S l) (hT : T ≤ S) : GoodFrom T l := by
  induction l generalizing S T with
  | nil => trivial
  | cons y l ih => exact ⟨fun k hk => hT.trans (h.1 k hk), ih h.2 (by linarith)⟩

/-- The sum of an initial part is bounded by a number `z` below `Y`. -/
def Cap (S Y : ℚ) : Prop := S = 0 ∨ ∃ (z : ℚ) (v : Int), Mul v z ∧ 0 < z ∧ z ≤ Y ∧ S ≤ z + 3 / 4 * 2 ^ v

theorem Cap.mono {S Y Z : ℚ} (h : Cap S Y) (hY : Y ≤ Z) : Cap S Z := by
  rcases h with h | ⟨z, v, h1, h2, h3, h4⟩
  · exact .inl h
  · exact .inr ⟨z, v, h1, h2, h3.trans hY, h4⟩

theorem Cap.le {S Y : ℚ} (h : Cap S Y) (hY : 0 ≤ Y) : S ≤ 7 / 4 * Y := by
  rcases h with h | ⟨z, v, h1, h2, h3, h4⟩
  · rw [h]; linarith
  · have := h1.le_abs h2.ne'
    rw [abs_of_pos h2] at this
    linarith

theorem Cap.lt {p : Nat} {S Y : ℚ} (h : Cap S Y) {k : Int} (hk : Mul k Y) (hY : Y < 2 ^ (k + p)) : S ≤ 2 ^ (k + p) - 2 ^ k / 4 := by
  have hu := two_zpow_pos k
  rcases h with h | ⟨z, v, h1, h2, h3, h4⟩
  · have := two_zpow_le (show k ≤ k + p by omega)
    rw [h]; linarith
  · have hvz := h1.le_abs h2.ne'
    rw [abs_of_pos h2] at hvz
    rcases le_or_gt v k with hv | hv
    · have h5 := Mul.le_sub hk (Mul.pow (show k ≤ k + p by omega)) hY
      have h6 := two_zpow_le hv
      linarith
    · have hvp : v < k + p := lt_of_two_zpow (hvz.trans_lt (h3.trans_lt hY))
      have h5 := Mul.le_sub h1 (Mul.pow hvp.le) (h3.trans_lt hY)
      have h6 := two_zpow_le hv.le
      linarith

/-! ### One step of the sum -/

/-- Magnitudes of the errors after an inexact step. -/
theorem step_core {p : Nat} {s A SL SM : ℚ} {k : Int} (hp : 0 < p) (hA0 : 0 ≤ A) (hA : A ≤ 2 ^ k / 4) (hL : SL ≤ 3 / 4 * 2 ^ k)
    (hM : SM ≤ 2 ^ (k + p) - 2 ^ k / 4) (hs : |s| ≤ SL + SM + A) (hh : s - rnd p s ≠ 0) {j : Int} (hj : IsLsb j (s - rnd p s))
    (hAj : A ≤ 3 / 4 * 2 ^ j) :
    A + |s - rnd p s| ≤ 3 / 4 * 2 ^ k ∧
    (A + |s - rnd p s| ≤ 2 ^ k / 4 ∨ (Mul k (rnd p s) ∧ 2 ^ (k + p - 2) - 2 ^ k ≤ SM)) := by
  have hs0 : s ≠ 0 := by rintro rfl; rw [rnd_zero] at hh; simp at hh
  have hg := grid_spec p hs0
  set g := grid p s with hgdef
  have herr : |s - rnd p s| ≤ 2 ^ g / 2 := by rw [abs_sub_comm]; exact rnd_err p s
  have hjh := hj.le_abs
  have hhalf : ∀ i : Int, (2 : ℚ) ^ i = 2 * 2 ^ (i - 1) := fun i => by rw [← two_zpow_succ]; congr 1; ring
  have hjg : j ≤ g - 1 := by
    by_contra hc
    have h1 := two_zpow_le (show g ≤ j by omega)
    have := two_zpow_pos g
    linarith
  have htie : |s - rnd p s| = 2 ^ g / 2 ∨ A + |s - rnd p s| < 2 ^ g / 2 := by
    rcases lt_or_eq_of_le herr with h | h
    · right
      have h2 : (2 : ℚ) ^ g / 2 = 2 ^ (g - 1) := by rw [hhalf g]; ring
      rw [h2] at h
      have h1 := Mul.le_sub hj.mul.abs (Mul.pow hjg) h
      have := two_zpow_pos j
      rw [h2]
      linarith
    · exact .inl h
  have hAg : A ≤ 3 / 8 * 2 ^ g := by
    have := two_zpow_le hjg
    rw [hhalf g]; linarith
  have hlow : k - 1 ≤ g → 2 ^ (k + p - 2) - 2 ^ k ≤ SM := by
    intro h
    have h1 : (2 : ℚ) ^ (k + p - 2) ≤ 2 ^ (g + p - 1) := two_zpow_le (by omega)
    linarith [hg.1]
  have hu := two_zpow_pos k
  have hk1 := hhalf k
  rcases lt_trichotomy g k with hgk | hgk | hgk
  · have h1 := two_zpow_le (show g ≤ k - 1 by omega)
    refine ⟨?_, ?_⟩
    · rcases htie with h | h <;> linarith
    · rcases htie with h | h
      · rcases eq_or_lt_of_le (show g ≤ k - 1 by omega) with hg1 | hg1
        · right
          refine ⟨?_, hlow (by omega)⟩
          have := rnd_tie p s (by rw [abs_sub_comm]; exact h)
          exact this.mono (by omega)
        · left
          have h2 := two_zpow_le (show g ≤ k - 1 - 1 by omega)
          have h3 := hhalf (k - 1)
          linarith
      · left; linarith
  · refine ⟨?_, .inr ⟨(rnd_mul_grid p s).mono hgk.ge, hlow (by omega)⟩⟩
    rw [hgk] at htie
    rcases htie with h | h <;> linarith
  · refine ⟨?_, .inr ⟨(rnd_mul_grid p s).mono hgk.le, hlow (by omega)⟩⟩
    have hbig : (2 : ℚ) ^ (k + p) ≤ |s| := le_trans (two_zpow_le (by omega)) hg.1
    have hhle : |s - rnd p s| ≤ 2 ^ k / 2 + A := by
      have h1 : |s - rnd p s| ≤ |s| - 2 ^ (k + p) := by
        rcases le_total 0 s with h | h
        · have := rnd_nearest hp s (Rep.pow p hp (k + p))
          rw [abs_sub_comm] at this
          rw [abs_of_nonneg h] at hbig ⊢
          rwa [abs_of_nonpos (a := 2 ^ (k + p) - s) (by linarith), neg_sub] at this
        · have := rnd_nearest hp s (Rep.pow p hp (k + p)).neg
          rw [abs_sub_comm] at this
          rw [abs_of_nonpos h] at hbig ⊢
          rwa [abs_of_nonneg (a := -2 ^ (k + p) - s) (by linarith), show -(2 : ℚ) ^ (k + p) - s = -s - 2 ^ (k + p) by ring] at this
      linarith
    have hfin : |s - rnd p s| ≤ 2 ^ k / 2 := by
      rcases le_or_gt j (k - 1) with h | h
      · by_contra hc
        have h2 : (2 : ℚ) ^ k / 2 = 2 ^ (k - 1) := by rw [hhalf k]; ring
        rw [h2] at hc hhle
        have := Mul.le_sub (Mul.pow h) hj.mul.abs (not_le.mp hc)
        have := two_zpow_pos j
        linarith
      · have := two_zpow_le (show k ≤ j by omega)
        linarith
    linarith

/-- One half of the invariant of the sum: `es` are the components of one argument that are left, `fs` those of the other one, `Se` and
`Sf` the magnitudes of those already used, `A` the magnitudes of the components of the result. -/
structure Half (p : Nat) (es fs : List ℚ) (Se Sf A Q : ℚ) : Prop where
  good : GoodFrom Se es
  rep : ∀ y ∈ es, Rep p y
  nonneg : 0 ≤ Se
  a : ∀ y ∈ es, ∀ k, IsLsb k y → A ≤ 3 / 4 * 2 ^ k
  c : ∀ l1 y l2, es = l1 ++ y :: l2 → ∀ k, IsLsb k y →
    A ≤ 2 ^ k / 4 ∨ (Mul k Q ∧ (∀ t ∈ l1, t = 0) ∧ ∀ w ∈ fs, Mul (k + 3) w)
  m : ∀ y ∈ es, y ≠ 0 → Cap Sf |y|

/-- Invariant of the sum. -/
structure Inv (p : Nat) (es fs : List ℚ) (Se Sf A Q : ℚ) : Prop where
  he : Half p es fs Se Sf A Q
  hf : Half p fs es Sf Se A Q
  repQ : Rep p Q
  nonneg : 0 ≤ A
  b : ∀ k, IsLsb k Q → A ≤ 3 / 4 * 2 ^ k
  bound : |Q| ≤ Se + Sf + A

theorem Inv.swap {p : Nat} {es fs : List ℚ} {Se Sf A Q : ℚ} (h : Inv p es fs Se Sf A Q) : Inv p fs es Sf Se A Q :=
  ⟨h.hf, h.he, h.repQ, h.nonneg, h.b, by rw [add_comm Sf Se]; exact h.bound⟩

theorem Inv.start {p : Nat} {e f : List ℚ} (he : GoodFrom 0 e) (hf : GoodFrom 0 f) (re : ∀ y ∈ e, Rep p y) (rf : ∀ y ∈ f, Rep p y) :
    Inv p e f 0 0 0 0 := by
  have key : ∀ {e f : List ℚ}, GoodFrom 0 e → (∀ y ∈ e, Rep p y) → Half p e f 0 0 0 0 := by
    intro e f he re
    refine ⟨he, re, le_refl _, ?_, ?_, ?_⟩
    · intro y _ k _; have := two_zpow_pos k; linarith
    · intro _ _ _ _ k _; left; have := two_zpow_pos k; linarith
    · intro _ _ _; exact .inl rfl
  exact ⟨key he re, key hf rf, Rep.zero p, le_refl _, fun k hk => absurd rfl hk.ne_zero, by simp⟩

/-- What remains when a component has been used. -/
theorem half_step {p : Nat} (hp : 5 ≤ p) {L M : List ℚ} {SL SM A s : ℚ} (hA0 : 0 ≤ A) (hSL : 0 ≤ SL)
    (good : GoodFrom SL L) (rep : ∀ y ∈ L, Rep p y) (ha : ∀ y ∈ L, ∀ k, IsLsb k y → A ≤ 3 / 4 * 2 ^ k)
    (hm : ∀ y ∈ L, y ≠ 0 → Cap SM |y|) (goodM : GoodFrom SM M) (repM : ∀ y ∈ M, Rep p y) (hs : |s| ≤ SL + SM + A)
    (hj : ∀ j, IsLsb j (s - rnd p s) → A ≤ 3 / 4 * 2 ^ j) (hms : ∃ j, Mul j (s - rnd p s))
    (hc : ∀ l1 y l2, L = l1 ++ y :: l2 → ∀ k, IsLsb k y →
      A ≤ 2 ^ k / 4 ∨ (Mul k s ∧ Rep p s ∧ (∀ t ∈ l1, t = 0) ∧ ∀ w ∈ M, Mul (k + 3) w)) :
    Half p L M SL SM (A + |s - rnd p s|) (rnd p s) := by
  have hp0 : 0 < p := by omega
  -- a component and its place
  have key : ∀ l1 y l2, L = l1 ++ y :: l2 → ∀ k, IsLsb k y →
      A + |s - rnd p s| ≤ 3 / 4 * 2 ^ k ∧
      (A + |s - rnd p s| ≤ 2 ^ k / 4 ∨ (Mul k (rnd p s) ∧ (∀ t ∈ l1, t = 0) ∧ ∀ w ∈ M, Mul (k + 3) w)) := by
    intro l1 y l2 e k hk
    have hy : y ∈ L := by rw [e]; simp
    by_cases hh : s - rnd p s = 0
    · rw [hh, abs_zero, add_zero]
      refine ⟨ha y hy k hk, ?_⟩
      rcases hc l1 y l2 e k hk with h | ⟨h1, h2, h3, h4⟩
      · exact .inl h
      · exact .inr ⟨by rw [rnd_rep h2]; exact h1, h3, h4⟩
    · have hA : A ≤ 2 ^ k / 4 := by
        rcases hc l1 y l2 e k hk with h | ⟨h1, h2, h3, h4⟩
        · exact h
        · rw [rnd_rep h2, sub_self] at hh; exact absurd rfl hh
      obtain ⟨j0, hj0⟩ := hms
      obtain ⟨j, hj1, _⟩ := exists_lsb hj0 hh
      have hat := good.at e hk
      have hL : SL ≤ 3 / 4 * 2 ^ k := by linarith [asum_nonneg l1]
      have hM := (hm y hy hk.ne_zero).lt (p := p) hk.mul.abs ((rep y hy).lt_lsb hk)
      have hu := two_zpow_pos k
      obtain ⟨h1, h2⟩ := step_core hp0 hA0 hA hL hM hs hh hj1 (hj j hj1)
      refine ⟨h1, ?_⟩
      rcases h2 with h2 | ⟨h2, h3⟩
      · exact .inl h2
      · right
        have h4 : (2 : ℚ) ^ (k + 3) ≤ 2 ^ (k + p - 2) := two_zpow_le (by omega)
        have h5 : (2 : ℚ) ^ (k + 3) = 8 * 2 ^ k := by
          rw [show k + 3 = k + (3 : Nat) by norm_num, zpow_add_nat]; ring
        refine ⟨h2, ?_, ?_⟩
        · intro t ht
          by_contra ht0
          have htL : t ∈ L := by rw [e]; simp [ht]
          have h6 := (hm t htL ht0).le (abs_nonneg t)
          have h7 : |t| ≤ asum l1 := by
            obtain ⟨a, b, e'⟩ := List.append_of_mem ht
            rw [e', asum_append, asum_cons]
            linarith [asum_nonneg a, asum_nonneg b]
          linarith
        · intro w hw
          by_cases hw0 : w = 0
          · rw [hw0]; exact Mul.zero _
          · obtain ⟨lw, hlw⟩ := (repM w hw).lsb hw0
            have h6 := goodM.mem hw hlw
            refine hlw.mul.mono ?_
            by_contra hc2
            have h7 := two_zpow_le (show lw ≤ k + 3 by omega)
            linarith
  refine ⟨good, rep, hSL, ?_, ?_, hm⟩
  · intro y hy k hk
    obtain ⟨l1, l2, e⟩ := List.append_of_mem hy
    exact (key l1 y l2 e k hk).1
  · intro l1 y l2 e k hk
    exact (key l1 y l2 e k hk).2

/-- One step of the sum. -/
theorem Inv.step {p : Nat} (hp : 5 ≤ p) {x : ℚ} {es fs : List ℚ} {Se Sf A Q : ℚ} (h : Inv p (x :: es) fs Se Sf A Q)
    (hx : ∀ w ∈ fs, w ≠ 0 → |x| ≤ |w|) :
    Inv p es fs (Se + |x|) Sf (A + |Q + x - rnd p (Q + x)|) (rnd p (Q + x)) ∧
    ∀ k, IsLsb k (Q + x - rnd p (Q + x)) → A ≤ 3 / 4 * 2 ^ k := by
  have hp0 : 0 < p := by omega
  have hrx : Rep p x := h.he.rep x (by simp)
  have hbound : |Q + x| ≤ Se + |x| + Sf + A := by
    have := abs_add_le Q x
    linarith [h.bound]
  -- lowest digits of sums
  have hmin : ∀ y, (∃ j, Mul j y) → (∀ j, Mul j Q → Mul j x → Mul j y) → ∀ k, IsLsb k y → A ≤ 3 / 4 * 2 ^ k := by
    intro y _ hy k hk
    by_cases hQ0 : Q = 0
    · by_cases hx0 : x = 0
      · have := hk.max (hy (k + 1) (by rw [hQ0]; exact Mul.zero _) (by rw [hx0]; exact Mul.zero _))
        omega
      · obtain ⟨l, hl⟩ := hrx.lsb hx0
        have h1 := hk.max (hy l (by rw [hQ0]; exact Mul.zero _) hl.mul)
        have h2 := h.he.a x (by simp) l hl
        have h3 := two_zpow_le h1
        linarith
    · obtain ⟨q, hq⟩ := h.repQ.lsb hQ0
      have h1 := h.b q hq
      by_cases hx0 : x = 0
      · have h2 := two_zpow_le (hk.max (hy q hq.mul (by rw [hx0]; exact Mul.zero _)))
        linarith
      · obtain ⟨l, hl⟩ := hrx.lsb hx0
        have h2 := h.he.a x (by simp) l hl
        rcases le_total q l with hql | hql
        · have h3 := two_zpow_le (hk.max (hy q hq.mul (hl.mul.mono hql)))
          linarith
        · have h3 := two_zpow_le (hk.max (hy l (hq.mul.mono hql) hl.mul))
          linarith
  obtain ⟨kq, hkq, _⟩ := h.repQ
  obtain ⟨kx, hkx, _⟩ := id hrx
  have hsm : Mul (min kq kx) (Q + x) := (hkq.mono (min_le_left _ _)).add (hkx.mono (min_le_right _ _))
  have hhl : ∀ k, IsLsb k (Q + x - rnd p (Q + x)) → A ≤ 3 / 4 * 2 ^ k :=
    hmin _ ⟨_, sum_err_mul hsm⟩ fun j h1 h2 => sum_err_mul (h1.add h2)
  refine ⟨⟨?_, ?_, rep_rnd hp0 _, by have := abs_nonneg (Q + x - rnd p (Q + x)); linarith [h.nonneg], ?_, ?_⟩, hhl⟩
  · -- the list of the component
    refine half_step hp h.nonneg (by have := abs_nonneg x; linarith [h.he.nonneg]) h.he.good.2
      (fun y hy => h.he.rep y (by simp [hy])) (fun y hy => h.he.a y (by simp [hy])) (fun y hy => h.he.m y (by simp [hy]))
      h.hf.good h.hf.rep (by linarith) hhl ⟨_, sum_err_mul hsm⟩ ?_
    intro l1 y l2 e k hk
    rcases h.he.c (x :: l1) y l2 (by rw [e]; rfl) k hk with h1 | ⟨h1, h2, h3⟩
    · exact .inl h1
    · right
      have hx0 : x = 0 := h2 x (by simp)
      rw [hx0, add_zero]
      exact ⟨h1, h.repQ, fun t ht => h2 t (by simp [ht]), h3⟩
  · -- the other list
    refine half_step hp h.nonneg h.hf.nonneg h.hf.good h.hf.rep h.hf.a ?_ h.he.good.2
      (fun y hy => h.he.rep y (by simp [hy])) (by linarith) hhl ⟨_, sum_err_mul hsm⟩ ?_
    · intro w hw hw0
      by_cases hx0 : x = 0
      · rw [hx0, abs_zero, add_zero]; exact h.hf.m w hw hw0
      · obtain ⟨l, hl⟩ := hrx.lsb hx0
        refine .inr ⟨|x|, l, hl.mul.abs, abs_pos.mpr hx0, hx w hw hw0, ?_⟩
        have := h.he.good.1 l hl
        linarith
    · intro l1 y l2 e k hk
      rcases h.hf.c l1 y l2 e k hk with h1 | ⟨h1, h2, h3⟩
      · exact .inl h1
      · right
        have hy : y ∈ fs := by rw [e]; simp
        have hmx : Mul k x := (h3 x (by simp)).mono (by omega)
        refine ⟨h1.add hmx, ?_, h2, fun w hw => h3 w (by simp [hw])⟩
        by_cases hx0 : x = 0
        · rw [hx0, add_zero]; exact h.repQ
        · obtain ⟨l, hl⟩ := hrx.lsb hx0
          have hl3 := hl.max (h3 x (by simp))
          refine ⟨k, h1.add hmx, ?_⟩
          have h4 := (h.hf.rep y hy).lt_lsb hk
          have h5 := (hx y hy hk.ne_zero).trans_lt h4
          have hlp : l < k + p := lt_of_two_zpow (hl.le_abs.trans_lt h5)
          have h6 := Mul.le_sub hl.mul.abs (Mul.pow hlp.le) h5
          have h7 := h.he.good.1 l hl
          have h8 := h.hf.good.mem hy hk
          have h9 := h.hf.a y hy k hk
          have h10 := two_zpow_le hl3
          have h11 : (2 : ℚ) ^ (k + 3) = 8 * 2 ^ k := by
            rw [show k + 3 = k + (3 : Nat) by norm_num, zpow_add_nat]; ring
          have := two_zpow_pos k
          linarith
  · -- the sum
    intro k hk
    by_cases hh : Q + x - rnd p (Q + x) = 0
    · rw [hh, abs_zero, add_zero]
      have e : rnd p (Q + x) = Q + x := by linarith
      rw [e] at hk
      exact hmin _ ⟨_, hsm⟩ (fun j h1 h2 => h1.add h2) k hk
    · obtain ⟨j, hj, _⟩ := exists_lsb (sum_err_mul (p := p) hsm) hh
      have h1 := hhl j hj
      set s := Q + x with hs
      have herr : |s - rnd p s| ≤ 2 ^ grid p s / 2 := by rw [abs_sub_comm]; exact rnd_err p s
      have h2 : (2 : ℚ) ^ grid p s = 2 * 2 ^ (grid p s - 1) := by rw [← two_zpow_succ]; congr 1; ring
      have hjh := hj.le_abs
      have hjg : j ≤ grid p s - 1 := by
        by_contra hc
        have h1 := two_zpow_le (show grid p s ≤ j by omega)
        have := two_zpow_pos (grid p s)
        linarith
      have h5 := two_zpow_le hjg
      rcases lt_or_eq_of_le herr with h4 | h4
      · rw [show (2 : ℚ) ^ grid p s / 2 = 2 ^ (grid p s - 1) by rw [h2]; ring] at h4
        have h3 := Mul.le_sub hj.mul.abs (Mul.pow hjg) h4
        have h6 := two_zpow_le (hk.max (rnd_mul_grid p s))
        have := two_zpow_pos j
        linarith
      · have h6 := two_zpow_le (hk.max (rnd_tie p s (by rw [abs_sub_comm]; exact h4)))
        rw [two_zpow_succ] at h6
        have := two_zpow_pos (grid p s)
        linarith
  · have h1 : |rnd p (Q + x)| ≤ |Q + x| + |Q + x - rnd p (Q + x)| := by
      have := abs_sub (Q + x) (Q + x - rnd p (Q + x))
      rwa [sub_sub_cancel] at this
    linarith

/-! ### The sum of two expansions -/

theorem pickE_true {e f : ℚ} (h : pickE e f = true) : |e| ≤ |f| := by
  simp only [pickE, beq_iff_eq, decide_eq_decide, gt_iff_lt] at h
  rcases abs_cases e with ⟨h1, h2⟩ | ⟨h1, h2⟩ <;> rcases abs_cases f with ⟨h3, h4⟩ | ⟨h3, h4⟩ <;> rw [h1, h3] <;>
    by_contra hc <;> rw [not_le] at hc
  · have := h.mpr (by linarith); linarith
  · have := h.mpr (by linarith); linarith
  · have := h.mp (by linarith); linarith
  · have := h.mp (by linarith); linarith

theorem pickE_false {e f : ℚ} (h : pickE e f = false) : |f| ≤ |e| ∧ e ≠ 0 := by
  have h0 : e ≠ 0 := by rintro rfl; simp [pickE] at h
  refine ⟨?_, h0⟩
  by_contra hc
  rw [not_le] at hc
  have : pickE e f = true := by
    simp only [pickE, beq_iff_eq, decide_eq_decide, gt_iff_lt]
    rcases abs_cases e with ⟨h1, h2⟩ | ⟨h1, h2⟩ <;> rcases abs_cases f with ⟨h3, h4⟩ | ⟨h3, h4⟩ <;> rw [h1, h3] at hc <;>
      constructor <;> intro <;> linarith
  rw [this] at h
  exact absurd h (by simp)

/-- Later components are not smaller. -/
theorem GoodFrom.head_le {p : Nat} {S : ℚ} (hS : 0 ≤ S) {x : ℚ} {l : List ℚ} (h : GoodFrom S (x :: l)) (rep : ∀ y ∈ l, Rep p y) :
    ∀ w ∈ x :: l, w ≠ 0 → |x| ≤ |w| := by
  intro w hw hw0
  rcases List.mem_cons.mp hw with rfl | hw
  · exact le_refl _
  · obtain ⟨k, hk⟩ := (rep w hw).lsb hw0
    have h1 := h.2.mem hw hk
    have h2 := hk.le_abs
    have := two_zpow_pos k
    linarith

/-- Properties of the result of the sum. -/
structure SumOk (p : Nat) (A V : ℚ) (r : List ℚ × ℚ) : Prop where
  good : GoodFrom A (r.1 ++ [r.2])
  sum : r.1.sum + r.2 = V
  rep : ∀ y ∈ r.1 ++ [r.2], Rep p y
  ne : ∀ y ∈ r.1, y ≠ 0

theorem SumOk.emit {p : Nat} {A V s hh : ℚ} {r : List ℚ × ℚ} (h : SumOk p (A + |hh|) V r) (hA : ∀ k, IsLsb k hh → A ≤ 3 / 4 * 2 ^ k)
    (hr : Rep p hh) (hs : V + hh = s) : SumOk p A s (FP.emit hh r.1, r.2) := by
  unfold FP.emit
  split_ifs with h0
  · refine ⟨⟨hA, h.good⟩, ?_, ?_, ?_⟩
    · simp only [List.sum_cons]; linarith [h.sum]
    · intro y hy
      rcases List.mem_cons.mp hy with rfl | hy
      · exact hr
      · exact h.rep y hy
    · intro y hy
      rcases List.mem_cons.mp hy with rfl | hy
      · exact h0
      · exact h.ne y hy
  · have h0 : hh = 0 := not_not.mp h0
    subst h0
    refine ⟨?_, ?_, h.rep, h.ne⟩
    · have := h.good; rwa [abs_zero, add_zero] at this
    · rw [h.sum]; linarith

theorem fesLoop_ok {p : Nat} (hp : 5 ≤ p) (es fs : List ℚ) (Q : ℚ) : ∀ Se Sf A : ℚ, Inv p es fs Se Sf A Q →
    SumOk p A (Q + es.sum + fs.sum) (fesLoop p es fs Q) := by
  have hp0 : 0 < p := by omega
  induction es, fs, Q using fesLoop.induct p with
  | case1 Q =>
    intro Se Sf A h
    simp only [fesLoop]
    exact ⟨⟨h.b, trivial⟩, by simp, by simpa using h.repQ, by simp⟩
  | case2 e es Q r ih =>
    intro Se Sf A h
    have hx := h.step hp (by simp)
    have hre := h.he.rep e (by simp)
    have ht : twoSum p Q e = (rnd p (Q + e), Q + e - rnd p (Q + e)) := twoSum_eq (by omega) h.repQ hre
    simp only [fesLoop, ht]
    have h2 := ih (Se + |e|) Sf (A + |Q + e - rnd p (Q + e)|) (by simp only [r, ht]; exact hx.1)
    simp only [r, ht] at h2
    exact h2.emit hx.2 (sum_err_rep hp0 h.repQ hre) (by simp only [List.sum_cons]; ring)
  | case3 f fs Q r ih =>
    intro Se Sf A h
    have hx := h.swap.step hp (by simp)
    have hre := h.hf.rep f (by simp)
    have ht : twoSum p Q f = (rnd p (Q + f), Q + f - rnd p (Q + f)) := twoSum_eq (by omega) h.repQ hre
    simp only [fesLoop, ht]
    have h2 := ih Se (Sf + |f|) (A + |Q + f - rnd p (Q + f)|) (by simp only [r, ht]; exact hx.1.swap)
    simp only [r, ht] at h2
    exact h2.emit hx.2 (sum_err_rep hp0 h.repQ hre) (by simp only [List.sum_cons]; ring)
  | case4 e es f fs Q hpick r ih =>
    intro Se Sf A h
    have hx := h.step hp (fun w hw hw0 => (pickE_true hpick).trans
      (GoodFrom.head_le h.hf.nonneg h.hf.good (fun y hy => h.hf.rep y (by simp [hy])) w hw hw0))
    have hre := h.he.rep e (by simp)
    have ht : twoSum p Q e = (rnd p (Q + e), Q + e - rnd p (Q + e)) := twoSum_eq (by omega) h.repQ hre
    rw [fesLoop, if_pos hpick]
    simp only [ht]
    have h2 := ih (Se + |e|) Sf (A + |Q + e - rnd p (Q + e)|) (by simp only [r, ht]; exact hx.1)
    simp only [r, ht] at h2
    exact h2.emit hx.2 (sum_err_rep hp0 h.repQ hre) (by simp only [List.sum_cons]; ring)
  | case5 e es f fs Q hpick r ih =>
    intro Se Sf A h
    have hpf := pickE_false (by simpa using hpick)
    have hx := h.swap.step hp (fun w hw hw0 => hpf.1.trans
      (GoodFrom.head_le h.he.nonneg h.he.good (fun y hy => h.he.rep y (by simp [hy])) w hw hw0))
    have hre := h.hf.rep f (by simp)
    have ht : twoSum p Q f = (rnd p (Q + f), Q + f - rnd p (Q + f)) := twoSum_eq (by omega) h.repQ hre
    rw [fesLoop, if_neg hpick]
    simp only [ht]
    have h2 := ih Se (Sf + |f|) (A + |Q + f - rnd p (Q + f)|) (by simp only [r, ht]; exact hx.1.swap)
    simp only [r, ht] at h2
    exact h2.emit hx.2 (sum_err_rep hp0 h.repQ hre) (by simp only [List.sum_cons]; ring)

/-- Expansions as the predicates use them. -/
structure Expn (p : Nat) (V : ℚ) (l : List ℚ) : Prop where
  good : GoodFrom 0 l
  rep : ∀ y ∈ l, Rep p y
  sum : l.sum = V
  ne : l ≠ []

/-- Expansions from which zeros have been removed. -/
structure ExpnZ (p : Nat) (V : ℚ) (l : List ℚ) : Prop extends Expn p V l where
  zero : top l = 0 → V = 0

theorem finish_ok {p : Nat} {V : ℚ} {r : List ℚ × ℚ} (h : SumOk p 0 V r) : ExpnZ p V (finish r) := by
  unfold finish
  split_ifs with h0
  · refine ⟨⟨h.good, h.rep, by simpa using h.sum, by simp⟩, ?_⟩
    intro ht
    simp only [top, List.getLastD_concat] at ht
    have h1 : r.1 = [] := h0.resolve_left (by simpa using ht)
    have h2 := h.sum
    rw [h1, ht] at h2
    simpa using h2.symm
  · simp only [not_or, not_not] at h0
    have hz : ∀ (l : List ℚ) (S : ℚ), GoodFrom S (l ++ [r.2]) → GoodFrom S l := by
      intro l
      induction l with
      | nil => intro S _; trivial
      | cons y l ih => intro S h; exact ⟨h.1, ih _ h.2⟩
    refine ⟨⟨hz _ _ h.good, fun y hy => h.rep y (by simp [hy]), ?_, h0.2⟩, ?_⟩
    · have h2 := h.sum
      rw [h0.1, add_zero] at h2
      exact h2
    · intro ht
      obtain ⟨l, y, hly⟩ := List.eq_nil_or_concat r.1 |>.resolve_left h0.2
      rw [top, hly, List.concat_eq_append, List.getLastD_concat] at ht
      exact absurd ht (h.ne y (by rw [hly]; simp))

theorem fesLoop_zero {p : Nat} (hp : 2 ≤ p) {e0 f0 : ℚ} (es fs : List ℚ) (he : Rep p e0) (hf : Rep p f0) :
    fesLoop p (e0 :: es) (f0 :: fs) 0 = if pickE e0 f0 then fesLoop p es (f0 :: fs) e0 else fesLoop p (e0 :: es) fs f0 := by
  have h : ∀ {x : ℚ}, Rep p x → twoSum p 0 x = (x, 0) := by
    intro x hx
    rw [twoSum_eq hp (Rep.zero p) hx]
    simp [rnd_rep hx]
  rw [fesLoop]
  simp only [h he, h hf, emit, ne_eq, not_true_eq_false, if_false]

theorem fesRest_eq {p : Nat} (hp : 2 ≤ p) {es fs : List ℚ} {Q : ℚ} (hQ : Rep p Q) (he : ∀ y ∈ es, Rep p y) (hf : ∀ y ∈ fs, Rep p y)
    (he' : ∀ y ∈ es, y ≠ 0 → |Q| ≤ |y|) (hf' : ∀ y ∈ fs, y ≠ 0 → |Q| ≤ |y|) : fesRest p es fs Q = fesLoop p es fs Q := by
  unfold fesRest
  split
  · rename_i e es f fs
    have h : ∀ {x : ℚ}, Rep p x → (x ≠ 0 → |Q| ≤ |x|) → fastTwoSum p x Q = twoSum p Q x := by
      intro x hx hle
      rw [twoSum_eq hp hQ hx, fastTwoSum_eq (by omega) hx hQ (by
        by_cases hx0 : x = 0
        · exact .inr hx0
        · exact .inl (hle hx0)), add_comm x Q]
    rw [fesLoop, h (he e (by simp)) (he' e (by simp)), h (hf f (by simp)) (hf' f (by simp))]
  · rfl

/-- `fast_expansion_sum_zeroelim` yields an expansion of the sum. -/
theorem fes_ok {p : Nat} (hp : 5 ≤ p) {e f : List ℚ} {V W : ℚ} (he : Expn p V e) (hf : Expn p W f) : ExpnZ p (V + W) (fes p e f) := by
  have hstart := Inv.start he.good hf.good he.rep hf.rep
  obtain ⟨e0, es, rfl⟩ := List.exists_cons_of_ne_nil he.ne
  obtain ⟨f0, fs, rfl⟩ := List.exists_cons_of_ne_nil hf.ne
  have hok := fesLoop_ok hp _ _ _ _ _ _ hstart
  rw [zero_add, he.sum, hf.sum, fesLoop_zero (by omega) es fs (he.rep e0 (by simp)) (hf.rep f0 (by simp))] at hok
  have hle := GoodFrom.head_le (p := p) (le_refl _) he.good (fun y hy => he.rep y (by simp [hy]))
  have hlf := GoodFrom.head_le (p := p) (le_refl _) hf.good (fun y hy => hf.rep y (by simp [hy]))
  rw [fes]
  by_cases hpick : pickE e0 f0 = true
  · rw [if_pos hpick] at hok ⊢
    rw [fesRest_eq (by omega) (he.rep e0 (by simp)) (fun y hy => he.rep y (by simp [hy])) hf.rep
      (fun y hy => hle y (by simp [hy])) (fun y hy h0 => (pickE_true hpick).trans (hlf y hy h0))]
    exact finish_ok hok
  · have hpf := pickE_false (by simpa using hpick)
    rw [if_neg hpick] at hok ⊢
    rw [fesRest_eq (by omega) (hf.rep f0 (by simp)) he.rep (fun y hy => hf.rep y (by simp [hy]))
      (fun y hy h0 => hpf.1.trans (hle y hy h0)) (fun y hy => hlf y (by simp [hy]))]
    exact finish_ok hok

/-! ### Signs -/

theorem abs_sum_le (l : List ℚ) : |l.sum| ≤ asum l := by
  induction l with
  | nil => simp
  | cons x l ih =>
    rw [List.sum_cons, asum_cons]
    exact (abs_add_le _ _).trans (by linarith)

/-- The last component dominates. -/
theorem Expn.top_le {p : Nat} {V : ℚ} {l : List ℚ} (h : Expn p V l) (h0 : top l ≠ 0) : |V - top l| ≤ 3 / 4 * |top l| := by
  obtain ⟨m, y, rfl⟩ := List.eq_nil_or_concat l |>.resolve_left h.ne
  rw [List.concat_eq_append] at h h0 ⊢
  rw [top, List.getLastD_concat] at h0 ⊢
  obtain ⟨k, hk⟩ := (h.rep y (by simp)).lsb h0
  have h1 := h.good.at rfl hk
  have h2 := hk.le_abs
  have h3 : V - y = m.sum := by rw [← h.sum]; simp
  rw [h3]
  linarith [abs_sum_le m]

/-- The last component has the sign of the number. -/
theorem ExpnZ.sign {p : Nat} {V : ℚ} {l : List ℚ} (h : ExpnZ p V l) : SignType.sign (top l) = SignType.sign V := by
  by_cases h0 : top l = 0
  · rw [h0, h.zero h0]
  · have h1 := h.toExpn.top_le h0
    rw [abs_le] at h1
    rcases lt_or_gt_of_ne h0 with h2 | h2
    · rw [abs_of_neg h2] at h1
      rw [sign_neg h2, sign_neg (by linarith [h1.2])]
    · rw [abs_of_pos h2] at h1
      rw [sign_pos h2, sign_pos (by linarith [h1.1])]

end FP
end Verif
