import Verif.Lemmas.Expansion

/-!
# Product of an expansion and a number
-/
namespace Verif
namespace FP

theorem eps_le {p : Nat} (hp : 11 ≤ p) : eps p ≤ 1 / 2048 := by
  have h := two_zpow_le (show (-p : Int) ≤ -11 by omega)
  rw [eps]
  refine h.trans ?_
  norm_num

/-- `y` is a multiple of a power of two that is large compared to `A`. -/
def Ge (A y : ℚ) : Prop := ∃ k, Mul k y ∧ A ≤ 3 / 4 * 2 ^ k

theorem Ge.add {A y z : ℚ} (h : Ge A y) (h' : Ge A z) : Ge A (y + z) := by
  obtain ⟨k, h1, h2⟩ := h
  obtain ⟨l, h3, h4⟩ := h'
  rcases le_total k l with hkl | hkl
  · exact ⟨k, h1.add (h3.mono hkl), h2⟩
  · exact ⟨l, (h1.mono hkl).add h3, h4⟩

theorem Ge.neg {A y : ℚ} (h : Ge A y) : Ge A (-y) := by
  obtain ⟨k, h1, h2⟩ := h
  exact ⟨k, h1.neg, h2⟩

theorem Ge.sub {A y z : ℚ} (h : Ge A y) (h' : Ge A z) : Ge A (y - z) := by
  rw [sub_eq_add_neg]; exact h.add h'.neg

theorem Ge.rnd {A y : ℚ} (p : Nat) (h : Ge A y) : Ge A (rnd p y) := by
  obtain ⟨k, h1, h2⟩ := h
  exact ⟨k, rnd_mul h1, h2⟩

theorem Ge.lsb {A y : ℚ} (h : Ge A y) {j : Int} (hj : IsLsb j y) : A ≤ 3 / 4 * 2 ^ j := by
  obtain ⟨k, h1, h2⟩ := h
  have := two_zpow_le (hj.max h1)
  linarith

/-- Errors that are emitted before a rounding error, and the rounding error. -/
theorem round_step {p : Nat} {A s : ℚ} (hA : Ge A (s - rnd p s)) (h0 : s - rnd p s ≠ 0) :
    A + |s - rnd p s| ≤ 2 ^ grid p s / 2 ∨
    (|s - rnd p s| = 2 ^ grid p s / 2 ∧ A ≤ 3 / 8 * 2 ^ grid p s ∧ Mul (grid p s + 1) (rnd p s)) := by
  obtain ⟨k, h1, h2⟩ := hA
  have he := rnd_err p s
  rw [abs_sub_comm] at he
  have hg : (2 : ℚ) ^ (grid p s - 1) = 2 ^ grid p s / 2 := by
    have := two_zpow_succ (grid p s - 1)
    rw [sub_add_cancel] at this; linarith
  have hk := h1.le_abs h0
  have hkg : k ≤ grid p s - 1 := by
    by_contra hc
    have := two_zpow_lt (not_le.mp hc)
    linarith
  rcases lt_or_eq_of_le he with h | h
  · left
    rw [← hg] at h ⊢
    have := Mul.le_sub h1.abs (Mul.pow hkg) h
    linarith [two_zpow_pos k]
  · right
    refine ⟨h, ?_, rnd_tie p s (by rw [abs_sub_comm]; exact h)⟩
    have := two_zpow_le hkg
    linarith

/-- A number that lies between two floating point numbers is not the least of its binade. -/
theorem tie_ge {p : Nat} (hp : 0 < p) {t : ℚ} (h0 : t ≠ 0) (h : |t - rnd p t| = 2 ^ grid p t / 2) :
    2 ^ (grid p t + p - 1) + 2 ^ grid p t / 2 ≤ |t| := by
  have key : ∀ {t : ℚ}, 0 < t → |t - rnd p t| = 2 ^ grid p t / 2 → 2 ^ (grid p t + p - 1) + 2 ^ grid p t / 2 ≤ t := by
    intro t ht h
    have hg := (grid_spec p ht.ne').1
    rw [abs_of_pos ht] at hg
    have hQ := le_rnd hp (Rep.pow p hp _) hg
    rcases lt_or_eq_of_le hQ with h1 | h1
    · have := Mul.le_sub (k := grid p t) (Mul.pow (by omega)) (rnd_mul_grid p t) h1
      have h2 : |t - rnd p t| ≤ 2 ^ grid p t / 2 := h.le
      rw [abs_le] at h2
      linarith [h2.1]
    · rw [← h1, abs_of_nonneg (by linarith)] at h
      linarith
  rcases lt_or_gt_of_ne h0 with h1 | h1
  · have := key (t := -t) (by linarith) (by rw [rnd_neg, grid_neg, ← h, ← abs_neg]; congr 1; ring)
    rw [grid_neg] at this
    rwa [abs_of_neg h1]
  · rw [abs_of_pos h1]; exact key h1 h

/-- What is known before the factor `x` is treated. `T`: magnitudes of the factors before, `A`: magnitudes of the emitted numbers. -/
structure Pre (p : Nat) (b : ℚ) (κ : Int) (T A Q : ℚ) : Prop where
  hT : 0 ≤ T
  hA : 0 ≤ A
  rep : Rep p Q
  ge : Ge A Q
  bd : |Q| ≤ T * |b| + A
  sm : A ≤ 4 * eps p * (T * |b|)

/-- The emitted numbers are small, compared to a component that follows. -/
def Fut (κ : Int) (T A : ℚ) (k : Int) : Prop := A ≤ 2 ^ (k + κ) / 2 ∨ (A ≤ 3 / 4 * 2 ^ (k + κ) ∧ 2 ^ k / 2 < T)

theorem Fut.le {κ : Int} {T A : ℚ} {k : Int} (h : Fut κ T A k) : A ≤ 3 / 4 * 2 ^ (k + κ) := by
  have := two_zpow_pos (k + κ)
  rcases h with h | h
  · linarith
  · exact h.1

theorem fut_next {κ k l : Int} {T A x : ℚ} (h : Fut κ T A k) (hx : 2 ^ k ≤ |x|) (hT : 0 ≤ T) (hl : T + |x| ≤ 3 / 4 * 2 ^ l) :
    A ≤ 2 ^ (l + κ) / 4 := by
  have hk := two_zpow_pos k
  rcases h with h | ⟨h, h'⟩
  · have h1 : k < l := lt_of_two_zpow (by linarith [two_zpow_pos l])
    have h2 := two_zpow_le (show k + κ + 1 ≤ l + κ by omega)
    rw [two_zpow_succ] at h2
    linarith
  · have h1 : k + 1 < l := lt_of_two_zpow (by rw [two_zpow_succ]; linarith [two_zpow_pos l])
    have h2 := two_zpow_le (show k + κ + 1 + 1 ≤ l + κ by omega)
    rw [two_zpow_succ, two_zpow_succ] at h2
    linarith [two_zpow_pos (k + κ)]

/-- First rounding. -/
theorem scale_first {p : Nat} (hp : 11 ≤ p) {b x : ℚ} {κ k : Int} (hb : Mul κ b) (hbr : Rep p b) (hk : IsLsb k x)
    {T A Q : ℚ} (h : Pre p b κ T A Q) (hTk : T ≤ 3 / 4 * 2 ^ k) (hAk : Fut κ T A k) {P pt s S : ℚ}
    (hP : P = rnd p (x * b)) (hpt : pt = x * b - P) (hs : s = Q + pt) (hS : S = rnd p s) :
    |S| ≤ |P| ∧ Ge A (s - S) ∧ (s - S = 0 ∧ Ge A (P + S) ∨
      ∃ g, Mul g (P + S) ∧ A + |s - S| ≤ 2 ^ g / 2 ∧ 3 * 2 ^ (g + p - 2) ≤ |x * b|) := by
  have hp0 : 0 < p := by omega
  have he := eps_pos p
  have he' := eps_le hp
  have hX : 0 ≤ |x * b| := abs_nonneg _
  have hxk := hk.le_abs
  have hb0 := abs_nonneg b
  have heX : eps p * |x * b| ≤ |x * b| / 2048 := by
    have := mul_le_mul_of_nonneg_right he' hX; linarith
  have hKX : 2 ^ k * |b| ≤ |x * b| := by rw [abs_mul]; exact mul_le_mul_of_nonneg_right hxk hb0
  have hTb0 : 0 ≤ T * |b| := mul_nonneg h.hT hb0
  have hTb : T * |b| ≤ 3 / 4 * (2 ^ k * |b|) := by
    have := mul_le_mul_of_nonneg_right hTk hb0; linarith
  have hsm : A ≤ 1 / 512 * (T * |b|) := h.sm.trans (mul_le_mul_of_nonneg_right (by linarith) hTb0)
  have hpX : |pt| ≤ |x * b| / 2048 := by
    rw [hpt, hP, abs_sub_comm]; exact (rnd_rel p _).trans heX
  have hPX : |x * b| - |x * b| / 2048 ≤ |P| := by
    have := abs_sub_abs_le_abs_sub (x * b) P
    rw [← hpt] at this
    linarith
  have hsX : |s| ≤ T * |b| + A + |pt| := by
    rw [hs]; exact (abs_add_le _ _).trans (by linarith [h.bd])
  have hSs : |S| ≤ |s| + |s| / 2048 := by
    have h1 := abs_sub_abs_le_abs_sub S s
    have h2 := rnd_rel p s
    rw [← hS] at h2
    have := mul_le_mul_of_nonneg_right he' (abs_nonneg s)
    linarith
  have gxb : Ge A (x * b) := ⟨k + κ, hk.mul.mul hb, hAk.le⟩
  have gP : Ge A P := by rw [hP]; exact gxb.rnd p
  have gpt : Ge A pt := by rw [hpt]; exact gxb.sub gP
  have gs : Ge A s := by rw [hs]; exact h.ge.add gpt
  have gS : Ge A S := by rw [hS]; exact gs.rnd p
  refine ⟨by linarith, gs.sub gS, ?_⟩
  by_cases h0 : s - S = 0
  · left; exact ⟨h0, gP.add gS⟩
  right
  -- the factor is not a power of two
  have hpt0 : pt ≠ 0 := by
    intro hz
    rw [hz, add_zero] at hs
    rw [hS, hs, rnd_rep h.rep] at h0
    simp at h0
  have h3 : 3 * 2 ^ k ≤ |x| := by
    obtain ⟨m, hm, hx⟩ := hk
    by_cases h1 : |m| = 1
    · exfalso
      apply hpt0
      have hrep : Rep p (x * b) := by
        rcases abs_choice m with h2 | h2
        · rw [hx, show m = 1 by omega]
          have := hbr.scale k
          rwa [mul_comm, show ((1 : Int) : ℚ) * 2 ^ k = 2 ^ k by simp]
        · rw [hx, show m = -1 by omega]
          have := (hbr.scale k).neg
          convert this using 1
          push_cast; ring
      rw [hpt, hP, rnd_rep hrep, sub_self]
    · have h2 : 3 ≤ |m| := by
        obtain ⟨n, hn⟩ := hm
        rcases abs_cases m with ⟨h2, h3⟩ | ⟨h2, h3⟩ <;> omega
      rw [hx, abs_mul, abs_of_pos (two_zpow_pos k)]
      apply mul_le_mul_of_nonneg_right _ (two_zpow_pos k).le
      exact_mod_cast h2
  have hKX3 : 3 * (2 ^ k * |b|) ≤ |x * b| := by
    rw [abs_mul]
    have := mul_le_mul_of_nonneg_right h3 hb0; linarith
  have hs3 : 3 * |s| ≤ |x * b| := by linarith
  have hs0 : s ≠ 0 := by rintro rfl; rw [hS, rnd_zero] at h0; simp at h0
  have hg := (grid_spec p hs0).1
  have hg3 : 3 * 2 ^ (grid p s + p - 1) ≤ |x * b| := by linarith
  have hgP : Mul (grid p s + 1) P := by
    have : grid p s + 1 ≤ grid p (x * b) := by
      apply le_grid
      rw [show grid p s + 1 + p - 1 = grid p s + p - 1 + 1 by ring, two_zpow_succ]
      linarith [two_zpow_pos (grid p s + p - 1)]
    rw [hP]; exact (rnd_mul_grid p _).mono this
  have gh : Ge A (s - rnd p s) := by rw [← hS]; exact gs.sub gS
  rw [hS] at h0 ⊢
  rcases round_step gh h0 with hr | ⟨hr1, hr2, hr3⟩
  · refine ⟨grid p s, (hgP.mono (by omega)).add (rnd_mul_grid p s), hr, ?_⟩
    have := two_zpow_le (show grid p s + p - 2 ≤ grid p s + p - 1 by omega)
    linarith
  · refine ⟨grid p s + 1, hgP.add hr3, ?_, ?_⟩
    · rw [two_zpow_succ, hr1]; linarith [two_zpow_pos (grid p s)]
    · rw [show grid p s + 1 + p - 2 = grid p s + p - 1 by ring]; exact hg3

/-- One factor. -/
theorem scale_step {p : Nat} (hp : 11 ≤ p) {b x : ℚ} {κ k : Int} (hb : Mul κ b) (hb' : |b| < 2 ^ (κ + p)) (hk : IsLsb k x)
    {T A Q : ℚ} (h : Pre p b κ T A Q) (hTk : T ≤ 3 / 4 * 2 ^ k) (hAk : Fut κ T A k) {P pt s S t R : ℚ}
    (hP : P = rnd p (x * b)) (hpt : pt = x * b - P) (hs : s = Q + pt) (hS : S = rnd p s) (ht : t = P + S) (hR : R = rnd p t) :
    |S| ≤ |P| ∧ Ge A (s - S) ∧ Ge (A + |s - S|) (t - R) ∧ Pre p b κ (T + |x|) (A + |s - S| + |t - R|) R ∧
    ∀ l, T + |x| ≤ 3 / 4 * 2 ^ l → Fut κ (T + |x|) (A + |s - S| + |t - R|) l := by
  have hp0 : 0 < p := by omega
  have he := eps_pos p
  have he' := eps_le hp
  obtain ⟨c1, c2, c3⟩ := scale_first hp hb ⟨κ, hb, hb'⟩ hk h hTk hAk hP hpt hs hS
  rw [← ht] at c3
  have hxk := hk.le_abs
  have hb0 := abs_nonneg b
  have hTb0 : 0 ≤ T * |b| := mul_nonneg h.hT hb0
  have hY : (T + |x|) * |b| = T * |b| + |x * b| := by rw [abs_mul]; ring
  have hX : 0 ≤ |x * b| := abs_nonneg _
  set Y := (T + |x|) * |b| with hYdef
  have hY0 : 0 ≤ Y := by rw [hY]; linarith
  have h2p : (2 : ℚ) ^ (-p : Int) = eps p := rfl
  -- the sum of the numbers emitted so far
  have g1 : Ge (A + |s - S|) t := by
    rcases c3 with ⟨h0, hg⟩ | ⟨g, h1, h2, _⟩
    · rw [h0, abs_zero, add_zero]; exact hg
    · exact ⟨g, h1, by linarith [two_zpow_pos g]⟩
  have hpw : ∀ g : Int, (2 : ℚ) ^ g = 2 * eps p * 2 ^ (g + p - 1) := by
    intro g
    rw [eps, ← two_zpow_succ, ← zpow_add₀ (by norm_num)]; congr 1; ring
  have g2 : A + |s - S| ≤ 4 * eps p * Y := by
    rcases c3 with ⟨h0, _⟩ | ⟨g, _, h2, h3⟩
    · rw [h0, abs_zero, add_zero]
      exact h.sm.trans (mul_le_mul_of_nonneg_left (by rw [hY]; linarith) (by linarith))
    · have h4 := hpw g
      rw [show g + p - 1 = g + p - 2 + 1 by ring, two_zpow_succ] at h4
      have h5 : 4 * eps p * 2 ^ (g + p - 2) ≤ 4 * eps p * Y := mul_le_mul_of_nonneg_left (by
        rw [hY]; linarith [two_zpow_pos (g + p - 2)]) (by linarith)
      linarith [two_zpow_pos g]
  have hYl : ∀ l, T + |x| ≤ 3 / 4 * 2 ^ l → Y ≤ 3 / 4 * 2 ^ (l + κ + p) := by
    intro l hl
    rw [show l + κ + p = l + (κ + p) by ring, zpow_add₀ (by norm_num)]
    calc Y ≤ (3 / 4 * 2 ^ l) * |b| := mul_le_mul_of_nonneg_right hl hb0
      _ ≤ (3 / 4 * 2 ^ l) * 2 ^ (κ + p) := mul_le_mul_of_nonneg_left hb'.le (by linarith [two_zpow_pos l])
      _ = _ := by ring
  have g3 : ∀ l, T + |x| ≤ 3 / 4 * 2 ^ l → A + |s - S| ≤ 2 ^ (l + κ) / 2 := by
    intro l hl
    rcases c3 with ⟨h0, _⟩ | ⟨g, _, h2, h3⟩
    · rw [h0, abs_zero, add_zero]
      have := fut_next hAk hxk h.hT hl
      linarith [two_zpow_pos (l + κ)]
    · have h4 := hYl l hl
      rw [hY] at h4
      have : g + p - 2 < l + κ + p - 1 := by
        apply lt_of_two_zpow
        have := two_zpow_succ (l + κ + p - 1)
        rw [sub_add_cancel] at this
        linarith [two_zpow_pos (l + κ + p - 1)]
      have := two_zpow_le (show g ≤ l + κ by omega)
      linarith
  have g4 : ∀ l, T + |x| ≤ 3 / 4 * 2 ^ l → |t - R| = 2 ^ (l + κ) / 2 → A + |s - S| ≤ 2 ^ (l + κ) / 4 := by
    intro l hl htie
    rcases c3 with ⟨h0, _⟩ | ⟨g, h1, h2, h3⟩
    · rw [h0, abs_zero, add_zero]
      exact fut_next hAk hxk h.hT hl
    · have h4 : Mul g (t - R) := by rw [hR]; exact sum_err_mul h1
      have h5 : t - R ≠ 0 := by
        intro hz
        rw [hz, abs_zero] at htie
        linarith [two_zpow_pos (l + κ)]
      have := h4.le_abs h5
      linarith
  have hA1 : 0 ≤ A + |s - S| := by linarith [h.hA, abs_nonneg (s - S)]
  have g5 : |t| ≤ Y + (A + |s - S|) := by
    rw [show t = x * b + Q - (s - S) by rw [ht, hs, hpt]; ring]
    have h1 := abs_sub (x * b + Q) (s - S)
    have h2 := abs_add_le (x * b) Q
    rw [hY]; linarith [h.bd]
  set A1 := A + |s - S| with hA1def
  have g6 : Ge A1 (t - R) := by rw [hR]; exact g1.sub (g1.rnd p)
  have repR : Rep p R := by rw [hR]; exact rep_rnd hp0 _
  refine ⟨c1, c2, g6, ?_⟩
  have hRt : |R| ≤ Y + (A1 + |t - R|) := by
    have := abs_sub_abs_le_abs_sub R t
    rw [abs_sub_comm] at this
    linarith
  by_cases h0 : t - R = 0
  · rw [h0, abs_zero, add_zero] at hRt ⊢
    have htR : t = R := by linarith
    exact ⟨⟨by linarith [h.hT, abs_nonneg x], hA1, repR, by rw [← htR]; exact g1, hRt, g2⟩, fun l hl => .inl (g3 l hl)⟩
  have ht0 : t ≠ 0 := by rintro rfl; rw [hR, rnd_zero] at h0; simp at h0
  have hg := (grid_spec p ht0).1
  have hstep := round_step (p := p) (s := t) (A := A1) (by rw [← hR]; exact g6) (by rw [← hR]; exact h0)
  rw [← hR] at hstep
  set g := grid p t with hgdef
  have hgp := two_zpow_pos g
  have htY : |t| ≤ (1 + 1 / 512) * Y := by
    have : 4 * eps p * Y ≤ 1 / 512 * Y := mul_le_mul_of_nonneg_right (by linarith) hY0
    linarith
  have h78 : A1 + |t - R| ≤ 7 / 8 * 2 ^ g := by
    rcases hstep with h1 | ⟨h1, h2, _⟩ <;> linarith
  refine ⟨⟨by linarith [h.hT, abs_nonneg x], by linarith [abs_nonneg (t - R)], repR, ?_, hRt, ?_⟩, ?_⟩
  · rcases hstep with h1 | ⟨h1, h2, h3⟩
    · exact ⟨g, by rw [hR]; exact rnd_mul_grid p t, by linarith⟩
    · exact ⟨g + 1, h3, by rw [two_zpow_succ]; linarith⟩
  · have h1 := hpw g
    have h2 : 2 * eps p * 2 ^ (g + p - 1) ≤ 2 * eps p * ((1 + 1 / 512) * Y) := mul_le_mul_of_nonneg_left (by linarith) (by linarith)
    have : 0 ≤ eps p * Y := mul_nonneg he.le hY0
    linarith
  · intro l hl
    have hYl' := hYl l hl
    have hgl : g ≤ l + κ := by
      have : g + p - 1 < l + κ + p := by
        apply lt_of_two_zpow
        linarith [two_zpow_pos (l + κ + p)]
      omega
    rcases hstep with h1 | ⟨h1, h2, h3⟩
    · left
      have := two_zpow_le hgl
      linarith
    · rcases lt_or_eq_of_le hgl with h4 | h4
      · left
        have := two_zpow_le (show g + 1 ≤ l + κ by omega)
        rw [two_zpow_succ] at this
        linarith
      · right
        have h5 := g4 l hl (by rw [h1, h4])
        refine ⟨by rw [h1, h4]; linarith, ?_⟩
        by_contra hc
        have h6 := tie_ge hp0 ht0 (by rw [← hR]; exact h1)
        rw [← hgdef, h4] at h6
        have h7 : Y ≤ 2 ^ (l + κ + p - 1) := by
          rw [show l + κ + p - 1 = (l - 1) + (κ + p) by ring, zpow_add₀ (by norm_num)]
          have h8 : (2 : ℚ) ^ (l - 1) = 2 ^ l / 2 := by
            have := two_zpow_succ (l - 1)
            rw [sub_add_cancel] at this; linarith
          rw [h8]
          calc Y ≤ (2 ^ l / 2) * |b| := mul_le_mul_of_nonneg_right (not_lt.mp hc) hb0
            _ ≤ _ := mul_le_mul_of_nonneg_left hb'.le (by linarith [two_zpow_pos l])
        linarith [two_zpow_pos (l + κ)]

theorem scaleLoop_ok {p : Nat} (hp : 11 ≤ p) {b : ℚ} {κ : Int} (hb : Mul κ b) (hb' : |b| < 2 ^ (κ + p)) (es : List ℚ) :
    ∀ T A Q : ℚ, GoodFrom T es → (∀ y ∈ es, Rep p y) → Pre p b κ T A Q → (∀ y ∈ es, ∀ k, IsLsb k y → Fut κ T A k) →
    SumOk p A (Q + es.sum * b) (scaleLoop p (2 ^ half p + 1) b es Q) := by
  have hp0 : 0 < p := by omega
  have hbr : Rep p b := ⟨κ, hb, hb'⟩
  induction es with
  | nil =>
    intro T A Q hg hr h hf
    simp only [scaleLoop]
    refine ⟨⟨fun k hk => h.ge.lsb hk, trivial⟩, by simp, ?_, by simp⟩
    intro y hy
    simp at hy
    rw [hy]; exact h.rep
  | cons x es ih =>
    intro T A Q hg hr h hf
    have hx : Rep p x := hr x (by simp)
    simp only [scaleLoop, twoProduct_eq (show 4 ≤ p by omega) hx hbr, List.sum_cons]
    have hpr := prod_err_rep hp0 hx hbr
    rw [twoSum_eq (by omega) h.rep hpr]
    dsimp only
    by_cases h0 : x = 0
    · subst h0
      have e1 : rnd p (0 * b) = 0 := by rw [zero_mul, rnd_zero]
      rw [e1]
      have e2 : rnd p (Q + (0 * b - 0)) = Q := by rw [zero_mul, sub_zero, add_zero, rnd_rep h.rep]
      rw [e2, fastTwoSum_eq hp0 (Rep.zero p) h.rep (.inr rfl)]
      have e3 : rnd p (0 + Q) = Q := by rw [zero_add, rnd_rep h.rep]
      dsimp only
      rw [e3]
      have e4 : Q + (0 * b - 0) - Q = 0 := by ring
      have e5 : (0 : ℚ) + Q - Q = 0 := by ring
      rw [e4, e5]
      simp only [emit, ne_eq, not_true_eq_false, if_false, zero_add]
      refine ih T A Q ?_ (fun y hy => hr y (by simp [hy])) h (fun y hy => hf y (by simp [hy]))
      have := hg.2
      rwa [abs_zero, add_zero] at this
    obtain ⟨k, hk⟩ := hx.lsb h0
    obtain ⟨c1, c2, c3, c4, c5⟩ := scale_step hp hb hb' hk h (hg.1 k hk) (hf x (by simp) k hk) rfl rfl rfl rfl rfl rfl
    rw [fastTwoSum_eq hp0 (rep_rnd hp0 _) (rep_rnd hp0 _) (.inl c1)]
    dsimp only
    have hi := ih _ _ _ hg.2 (fun y hy => hr y (by simp [hy])) c4 (by
      intro y hy l hl
      exact c5 l (hg.2.mem hy hl))
    have r1 := sum_err_rep hp0 (a := rnd p (x * b)) (b := rnd p (Q + (x * b - rnd p (x * b)))) (rep_rnd hp0 _) (rep_rnd hp0 _)
    have r2 := sum_err_rep hp0 h.rep hpr
    have s1 := hi.emit (fun k hk => c3.lsb hk) r1 rfl
    have s2 := s1.emit (fun k hk => c2.lsb hk) r2 rfl
    convert s2 using 1
    ring

/-- The product is exact and satisfies the rule of expansions. -/
theorem scale_ok {p : Nat} (hp : 11 ≤ p) {e : List ℚ} {V b : ℚ} (he : Expn p V e) (hb : Rep p b) :
    ExpnZ p (V * b) (scale p (2 ^ half p + 1) e b) := by
  have hp0 : 0 < p := by omega
  have hb' := hb
  obtain ⟨κ, hb1, hb2⟩ := hb
  -- the first component is a step of the loop
  have h0 : Pre p b κ 0 0 0 := ⟨le_refl _, le_refl _, Rep.zero p, ⟨0, Mul.zero _, by norm_num⟩, by simp, by simp⟩
  have hloop := scaleLoop_ok hp hb1 hb2 e 0 0 0 he.good he.rep h0 (fun y _ k _ => .inl (by linarith [two_zpow_pos (k + κ)]))
  rw [zero_add, he.sum] at hloop
  have := finish_ok hloop
  convert this using 2
  obtain ⟨x, es, rfl⟩ := List.exists_cons_of_ne_nil he.ne
  have hx : Rep p x := he.rep x (by simp)
  have hpr := prod_err_rep hp0 hx hb'
  simp only [scale, scaleLoop, twoProduct_eq (show 4 ≤ p by omega) hx hb']
  rw [twoSum_eq (by omega) (Rep.zero p) hpr]
  dsimp only
  rw [zero_add, rnd_rep hpr, sub_self]
  have hle : |x * b - rnd p (x * b)| ≤ |rnd p (x * b)| := by
    have h1 := rnd_rel' hp0 (x * b)
    rw [abs_sub_comm] at h1
    have h2 := eps_le hp
    nlinarith [abs_nonneg (rnd p (x * b))]
  rw [fastTwoSum_eq hp0 (rep_rnd hp0 _) hpr (.inl hle)]
  dsimp only
  rw [show rnd p (x * b) + (x * b - rnd p (x * b)) = x * b by ring]
  simp [emit]

end FP
end Verif
