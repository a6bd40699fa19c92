import Verif.Model.ExpansionSums
import Verif.Props.Expansion

/-!
# The other functions for expansions (C122)
-/
namespace Verif
namespace FP

/-- The digits of every component are below those of all later ones, up to zeros. -/
def Nonoverlapping (l : List ℚ) : Prop := (l.filter (· ≠ 0)).Pairwise Below

/-- The last component that is not zero; 0 if there is none. -/
def topNonzero (l : List ℚ) : ℚ := (l.filter (· ≠ 0)).getLastD 0

/-! ### Numbers -/

theorem least_pow {x : ℚ} (h : x ≠ 0) : ∃ k : Int, |x| < 2 ^ k ∧ ∀ j : Int, |x| < 2 ^ j → k ≤ j := by
  have h0 : 0 < |x| := abs_pos.mpr h
  refine ⟨Int.log 2 |x| + 1, ?_, ?_⟩
  · have := Int.lt_zpow_succ_log_self (b := 2) (by norm_num) |x|
    exact_mod_cast this
  · intro j hj
    have h1 := Int.zpow_log_le_self (b := 2) (by norm_num) h0
    have h2 : (2 : ℚ) ^ Int.log 2 |x| < 2 ^ j := lt_of_le_of_lt (by exact_mod_cast h1) hj
    have := lt_of_two_zpow h2
    omega

theorem below_zero {p : Nat} {y : ℚ} (h : Rep p y) : Below 0 y := by
  obtain ⟨k, ⟨m, hm⟩, _⟩ := h
  exact ⟨k, m, hm, by simpa using two_zpow_pos k⟩

theorem below_zero_right (x : ℚ) : Below x 0 := by
  by_cases h : x = 0
  · subst h; exact ⟨0, 0, by simp, by simp⟩
  · obtain ⟨k, hk, _⟩ := least_pow h
    exact ⟨k, 0, by simp, hk⟩

theorem Below.mono {x x' y : ℚ} (h : Below x y) (hx : |x'| ≤ |x|) : Below x' y := by
  obtain ⟨k, r, h1, h2⟩ := h
  exact ⟨k, r, h1, hx.trans_lt h2⟩

theorem pairwise_iff {p : Nat} {l : List ℚ} (hr : ∀ x ∈ l, Rep p x) : Nonoverlapping l ↔ l.Pairwise Below := by
  induction l with
  | nil => simp [Nonoverlapping]
  | cons x l ih =>
    have ih := ih fun y hy => hr y (by simp [hy])
    unfold Nonoverlapping at ih ⊢
    by_cases h0 : x = 0
    · subst h0
      rw [List.filter_cons_of_neg (by simp), ih, List.pairwise_cons]
      exact ⟨fun h => ⟨fun y hy => below_zero (hr y (by simp [hy])), h⟩, fun h => h.2⟩
    · rw [List.filter_cons_of_pos (by simpa using h0), List.pairwise_cons, List.pairwise_cons, ih]
      refine and_congr_left fun _ => ⟨fun h y hy => ?_, fun h y hy => h y (List.mem_filter.mp hy).1⟩
      by_cases hy0 : y = 0
      · rw [hy0]; exact below_zero_right x
      · exact h y (List.mem_filter.mpr ⟨hy, by simpa using hy0⟩)

/-- If all later ones are multiples of a power above `x`, then `x` is below them. -/
theorem below_all {p : Nat} {x : ℚ} {l : List ℚ} (hl : ∀ y ∈ l, Rep p y) (h : x ≠ 0 → ∃ k, |x| < 2 ^ k ∧ ∀ y ∈ l, Mul k y) :
    ∀ y ∈ l, Below x y := by
  intro y hy
  by_cases h0 : x = 0
  · rw [h0]; exact below_zero (hl y hy)
  · obtain ⟨k, h1, h2⟩ := h h0
    obtain ⟨r, hr⟩ := h2 y hy
    exact ⟨k, r, hr, h1⟩

/-- If `x` is below every component, all of them are multiples of the same power. -/
theorem all_mul {x : ℚ} (h0 : x ≠ 0) {l : List ℚ} (h : ∀ y ∈ l, Below x y) : ∃ k, |x| < 2 ^ k ∧ (∀ j, |x| < 2 ^ j → k ≤ j) ∧ ∀ y ∈ l, Mul k y := by
  obtain ⟨k, hk, hmin⟩ := least_pow h0
  refine ⟨k, hk, hmin, fun y hy => ?_⟩
  obtain ⟨j, r, h1, h2⟩ := h y hy
  exact Mul.mono ⟨r, h1⟩ (hmin j h2)

/-! ### The sign of nonoverlapping components -/

private theorem lower_sum (l : List ℚ) : (∀ x ∈ l, x ≠ 0) → l.Pairwise Below → ∀ y, (∀ x ∈ l, Below x y) → y ≠ 0 → ∀ k, IsLsb k y → |l.sum| < 2 ^ k := by
  induction l using List.reverseRecOn with
  | nil => intro _ _ y _ _ k _; simpa using two_zpow_pos k
  | append_singleton l x ih =>
    intro h0 hp y hy hy0 k hk
    have hx0 : x ≠ 0 := h0 x (by simp)
    obtain ⟨j, r, hj, hxj⟩ := hy x (by simp)
    have hxk : |x| < 2 ^ k := hxj.trans_le (two_zpow_le (hk.max ⟨r, hj⟩))
    rw [List.sum_append, List.sum_singleton]
    by_cases hl : l = []
    · subst hl; simpa using hxk
    · rw [List.pairwise_append] at hp
      have hbx : ∀ z ∈ l, Below z x := fun z hz => hp.2.2 z hz x (by simp)
      obtain ⟨z, hz⟩ := List.exists_mem_of_ne_nil l hl
      obtain ⟨i, m, hm, _⟩ := hbx z hz
      obtain ⟨i', hi', _⟩ := exists_lsb (show Mul i x from ⟨m, hm⟩) hx0
      have h1 := ih (fun z hz => h0 z (by simp [hz])) hp.1 x hbx hx0 i' hi'
      have h2 : i' ≤ k := by
        have := lt_of_two_zpow (hi'.le_abs.trans_lt hxk)
        omega
      have h3 := Mul.le_sub (hi'.mul.abs) (Mul.pow h2) hxk
      have h4 := abs_add_le l.sum x
      linarith

theorem sign_add {x y : ℚ} (h : |x| < |y|) : SignType.sign y = SignType.sign (x + y) := by
  rcases lt_trichotomy y 0 with h0 | h0 | h0
  · rw [abs_of_neg h0, abs_lt] at h
    rw [sign_neg h0, sign_neg (by linarith)]
  · rw [h0, abs_zero] at h
    exact absurd h (not_lt.mpr (abs_nonneg x))
  · rw [abs_of_pos h0, abs_lt] at h
    rw [sign_pos h0, sign_pos (by linarith)]

theorem filter_sum (l : List ℚ) : (l.filter (· ≠ 0)).sum = l.sum := by
  induction l with
  | nil => rfl
  | cons x l ih =>
    by_cases h : x = 0
    · subst h; rw [List.filter_cons_of_neg (by simp), ih]; simp
    · rw [List.filter_cons_of_pos (by simpa using h), List.sum_cons, List.sum_cons, ih]

/-- The sign of nonoverlapping components is that of the last one that is not zero. -/
theorem sign_topNonzero {p : Nat} {l : List ℚ} (hr : ∀ x ∈ l, Rep p x) (h : Nonoverlapping l) :
    SignType.sign (topNonzero l) = SignType.sign l.sum := by
  rw [← filter_sum l, topNonzero]
  have h0 : ∀ x ∈ l.filter (· ≠ 0), x ≠ 0 := fun x hx => by simpa using (List.mem_filter.mp hx).2
  have hr' : ∀ x ∈ l.filter (· ≠ 0), Rep p x := fun x hx => hr x (List.mem_filter.mp hx).1
  unfold Nonoverlapping at h
  rcases List.eq_nil_or_concat (l.filter (· ≠ 0)) with e | ⟨m, y, e⟩
  · rw [e]; rfl
  · rw [List.concat_eq_append] at e
    rw [e] at h h0 hr' ⊢
    rw [List.pairwise_append] at h
    have hy0 := h0 y (by simp)
    obtain ⟨k, hk⟩ := (hr' y (by simp)).lsb hy0
    have := lower_sum m (fun z hz => h0 z (by simp [hz])) h.1 y (fun z hz => h.2.2 z hz y (by simp)) hy0 k hk
    rw [show (m ++ [y]).getLastD 0 = y by simp, List.sum_append, List.sum_singleton]
    exact sign_add (this.trans_le hk.le_abs)

/-! ### Adding a number -/

theorem grow_cons (p : Nat) (e : ℚ) (es : List ℚ) (b : ℚ) : grow p (e :: es) b = (twoSum p b e).2 :: grow p es (twoSum p b e).1 := rfl

theorem grow_rep {p : Nat} (hp : 2 ≤ p) (e : List ℚ) : ∀ b, (∀ x ∈ e, Rep p x) → Rep p b → ∀ x ∈ grow p e b, Rep p x := by
  induction e with
  | nil => intro b _ hb x hx; simp [grow, growLoop] at hx; rwa [hx]
  | cons a e ih =>
    intro b he hb x hx
    have ha := he a (by simp)
    rw [grow_cons, twoSum_eq hp hb ha, List.mem_cons] at hx
    rcases hx with rfl | hx
    · exact sum_err_rep (by omega) hb ha
    · exact ih _ (fun y hy => he y (by simp [hy])) (rep_rnd (by omega) _) x hx

theorem grow_sum {p : Nat} (hp : 2 ≤ p) (e : List ℚ) : ∀ b, (∀ x ∈ e, Rep p x) → Rep p b → (grow p e b).sum = e.sum + b := by
  induction e with
  | nil => intro b _ hb; simp [grow, growLoop]
  | cons a e ih =>
    intro b he hb
    have ha := he a (by simp)
    rw [grow_cons, twoSum_eq hp hb ha, List.sum_cons, ih _ (fun y hy => he y (by simp [hy])) (rep_rnd (by omega) _), List.sum_cons]
    ring

theorem grow_mul {p : Nat} (hp : 2 ≤ p) {k : Int} (e : List ℚ) : ∀ b, (∀ x ∈ e, Rep p x) → Rep p b → (∀ x ∈ e, Mul k x) → Mul k b →
    ∀ x ∈ grow p e b, Mul k x := by
  induction e with
  | nil => intro b _ _ _ hb x hx; simp [grow, growLoop] at hx; rwa [hx]
  | cons a e ih =>
    intro b he hb hm hmb x hx
    have ha := he a (by simp)
    have hs : Mul k (b + a) := hmb.add (hm a (by simp))
    rw [grow_cons, twoSum_eq hp hb ha, List.mem_cons] at hx
    rcases hx with rfl | hx
    · exact sum_err_mul hs
    · exact ih _ (fun y hy => he y (by simp [hy])) (rep_rnd (by omega) _) (fun y hy => hm y (by simp [hy])) (rnd_mul hs) x hx

theorem grow_pairwise {p : Nat} (hp : 2 ≤ p) (e : List ℚ) : ∀ b, (∀ x ∈ e, Rep p x) → Rep p b → e.Pairwise Below → (grow p e b).Pairwise Below := by
  induction e with
  | nil => intro b _ _ _; simp [grow, growLoop]
  | cons a e ih =>
    intro b he hb hpw
    have hp0 : 0 < p := by omega
    have ha := he a (by simp)
    have he' : ∀ y ∈ e, Rep p y := fun y hy => he y (by simp [hy])
    rw [List.pairwise_cons] at hpw
    rw [grow_cons, twoSum_eq hp hb ha, List.pairwise_cons]
    refine ⟨below_all (grow_rep hp e _ he' (rep_rnd hp0 _)) fun h0 => ?_, ih _ he' (rep_rnd hp0 _) hpw.2⟩
    obtain ⟨k, h1, h2, h3⟩ := all_mul h0 (l := e) fun y hy => (hpw.1 y hy).mono (sum_err_le hp0 hb)
    refine ⟨k, h1, grow_mul hp e _ he' (rep_rnd hp0 _) h3 ?_⟩
    refine (rnd_mul_grid p (b + a)).mono (h2 _ ?_)
    have := rnd_err p (b + a)
    rw [abs_sub_comm] at this
    have := two_zpow_pos (grid p (b + a))
    linarith

theorem grow_head {p : Nat} (hp : 2 ≤ p) {e : List ℚ} {b : ℚ} (he : ∀ x ∈ e, Rep p x) (hb : Rep p b) :
    ∃ g0 gs, grow p e b = g0 :: gs ∧ |g0| ≤ |b| := by
  cases e with
  | nil => exact ⟨b, [], rfl, le_refl _⟩
  | cons a e =>
    refine ⟨_, _, grow_cons p a e b, ?_⟩
    rw [twoSum_eq hp hb (he a (by simp)), add_comm b a]
    exact sum_err_le (by omega) (he a (by simp))

/-- `grow_expansion`: the sum is exact, the components are floating point numbers, one more than before, and if the components of the
argument do not overlap, neither do those of the result; then the last one that is not zero has the sign of the sum. -/
theorem C122_grow {p : Nat} (hp : 2 ≤ p) {e : List ℚ} {b : ℚ} (he : ∀ x ∈ e, IsFloat p x) (hb : IsFloat p b) :
    let h := grow p e b
    h.sum = e.sum + b ∧ (∀ x ∈ h, IsFloat p x) ∧ h.length = e.length + 1 ∧
    (Nonoverlapping e → Nonoverlapping h ∧ SignType.sign (topNonzero h) = SignType.sign (e.sum + b)) := by
  simp only [isFloat_iff] at he hb ⊢
  have h1 := grow_sum hp e b he hb
  have h2 := grow_rep hp e b he hb
  refine ⟨h1, h2, ?_, fun hn => ?_⟩
  · clear he hb h1 h2
    induction e generalizing b with
    | nil => rfl
    | cons a e ih => rw [grow_cons, List.length_cons, ih, List.length_cons]
  · have h3 : Nonoverlapping (grow p e b) := (pairwise_iff h2).mpr (grow_pairwise hp e b he hb ((pairwise_iff he).mp hn))
    exact ⟨h3, by rw [← h1]; exact sign_topNonzero h2 h3⟩

private theorem growLoopZ_eq (p : Nat) (e : List ℚ) : ∀ b, growLoopZ p e b = ((growLoop p e b).1.filter (· ≠ 0), (growLoop p e b).2) := by
  induction e with
  | nil => intro b; rfl
  | cons a e ih =>
    intro b
    simp only [growLoopZ, growLoop, ih, emit]
    split_ifs with h
    · rw [List.filter_cons_of_pos (by simpa using h)]
    · rw [List.filter_cons_of_neg (by simpa using h)]

/-- Removing zeros from a result. -/
theorem finish_filter (l : List ℚ) (Q : ℚ) : (finish (l.filter (· ≠ 0), Q)).filter (· ≠ 0) = (l ++ [Q]).filter (· ≠ 0) ∧
    ((∀ x ∈ finish (l.filter (· ≠ 0), Q), x ≠ 0) ∨ finish (l.filter (· ≠ 0), Q) = [0]) ∧
    (∀ x ∈ finish (l.filter (· ≠ 0), Q), x ∈ l ++ [Q]) := by
  have hne : ∀ x ∈ l.filter (· ≠ 0), x ≠ 0 := fun x hx => by simpa using (List.mem_filter.mp hx).2
  unfold finish
  by_cases hQ : Q = 0
  · subst hQ
    by_cases hl : l.filter (· ≠ 0) = []
    · rw [List.filter_append, hl]; simp
    · simp only [hl, not_true_eq_false, ne_eq, or_self, if_false] at hne ⊢
      refine ⟨by simp, Or.inl hne, fun x hx => ?_⟩
      simp only [List.mem_filter] at hx
      simp [hx.1]
  · simp only [hQ, ne_eq, not_false_eq_true, true_or, if_true]
    refine ⟨by simp, Or.inl ?_, ?_⟩
    · intro x hx
      rw [List.mem_append, List.mem_singleton] at hx
      rcases hx with hx | rfl
      · exact hne x hx
      · exact hQ
    · intro x hx
      rw [List.mem_append, List.mem_singleton, List.mem_filter] at hx
      rw [List.mem_append, List.mem_singleton]
      exact hx.imp And.left id

theorem nonoverlapping_congr {l l' : List ℚ} (h : l.filter (· ≠ 0) = l'.filter (· ≠ 0)) : Nonoverlapping l ↔ Nonoverlapping l' := by
  unfold Nonoverlapping; rw [h]

theorem sum_congr {l l' : List ℚ} (h : l.filter (· ≠ 0) = l'.filter (· ≠ 0)) : l.sum = l'.sum := by
  rw [← filter_sum l, h, filter_sum]

/-- The last component of a result without zeros. -/
theorem last_of_nonzero {l : List ℚ} (h : (∀ x ∈ l, x ≠ 0) ∨ l = [0]) : l.getLastD 0 = topNonzero l := by
  rcases h with h | rfl
  · rw [topNonzero, List.filter_eq_self.mpr (by simpa using h)]
  · simp [topNonzero]

/-- `grow_expansion_zeroelim`: as `grow_expansion`, and the result has no zeros unless it is the single component 0; so its last component
has the sign of the sum. -/
theorem C122_growZ {p : Nat} (hp : 2 ≤ p) {e : List ℚ} {b : ℚ} (he : ∀ x ∈ e, IsFloat p x) (hb : IsFloat p b) :
    let h := growZ p e b
    h.sum = e.sum + b ∧ (∀ x ∈ h, IsFloat p x) ∧ ((∀ x ∈ h, x ≠ 0) ∨ h = [0]) ∧
    (Nonoverlapping e → Nonoverlapping h ∧ SignType.sign (h.getLastD 0) = SignType.sign (e.sum + b)) := by
  simp only [isFloat_iff] at he hb ⊢
  obtain ⟨f1, f2, f3⟩ := finish_filter (growLoop p e b).1 (growLoop p e b).2
  have hg : growZ p e b = finish ((growLoop p e b).1.filter (· ≠ 0), (growLoop p e b).2) := by rw [growZ, growLoopZ_eq]
  rw [← hg] at f1 f2 f3
  have h1 : (growZ p e b).sum = e.sum + b := by rw [sum_congr f1]; exact grow_sum hp e b he hb
  have h2 : ∀ x ∈ growZ p e b, Rep p x := fun x hx => grow_rep hp e b he hb x (f3 x hx)
  refine ⟨h1, h2, f2, fun hn => ?_⟩
  have h3 : Nonoverlapping (growZ p e b) := (nonoverlapping_congr f1).mpr
    ((pairwise_iff (grow_rep hp e b he hb)).mpr (grow_pairwise hp e b he hb ((pairwise_iff he).mp hn)))
  exact ⟨h3, by rw [← h1, last_of_nonzero f2]; exact sign_topNonzero h2 h3⟩

/-! ### Adding two expansions -/

theorem sumLoop_ok {p : Nat} (hp : 2 ≤ p) (fs : List ℚ) : ∀ h, (∀ x ∈ h, Rep p x) → (∀ x ∈ fs, Rep p x) → h ≠ [] →
    (sumLoop p fs h).sum = h.sum + fs.sum ∧ (∀ x ∈ sumLoop p fs h, Rep p x) ∧ (sumLoop p fs h).length = h.length + fs.length ∧
    (∀ k, (∀ x ∈ h, Mul k x) → (∀ x ∈ fs, Mul k x) → ∀ x ∈ sumLoop p fs h, Mul k x) := by
  induction fs with
  | nil => intro h hr _ _; simp only [sumLoop]; exact ⟨by simp, hr, by simp, fun k hk _ => hk⟩
  | cons f fs ih =>
    intro h hr hf hne
    obtain ⟨h0, hs, rfl⟩ := List.exists_cons_of_ne_nil hne
    have hf0 := hf f (by simp)
    have hs' : ∀ x ∈ hs, Rep p x := fun x hx => hr x (by simp [hx])
    have hg := grow_rep hp hs f hs' hf0
    obtain ⟨g0, gs, hg0, _⟩ := grow_head hp hs' hf0
    obtain ⟨i1, i2, i3, i4⟩ := ih _ hg (fun x hx => hf x (by simp [hx])) (by rw [hg0]; simp)
    simp only [sumLoop]
    refine ⟨?_, ?_, ?_, ?_⟩
    · rw [List.sum_cons, i1, grow_sum hp hs f hs' hf0, List.sum_cons, List.sum_cons]; ring
    · intro x hx
      rw [List.mem_cons] at hx
      rcases hx with rfl | hx
      · exact hr x (by simp)
      · exact i2 x hx
    · have := (C122_grow hp (e := hs) (b := f) (fun x hx => isFloat_iff.mpr (hs' x hx)) (isFloat_iff.mpr hf0)).2.2.1
      rw [List.length_cons, i3, this, List.length_cons, List.length_cons]; ring
    · intro k hk hkf x hx
      rw [List.mem_cons] at hx
      rcases hx with rfl | hx
      · exact hk x (by simp)
      · exact i4 k (grow_mul hp hs f hs' hf0 (fun y hy => hk y (by simp [hy])) (hkf f (by simp))) (fun y hy => hkf y (by simp [hy])) x hx

theorem sumLoop_pairwise {p : Nat} (hp : 2 ≤ p) (fs : List ℚ) : ∀ h0 hs, (∀ x ∈ h0 :: hs, Rep p x) → (∀ x ∈ fs, Rep p x) →
    (h0 :: hs).Pairwise Below → fs.Pairwise Below → (∀ f ∈ fs, Below h0 f) → (sumLoop p fs (h0 :: hs)).Pairwise Below := by
  induction fs with
  | nil => intro h0 hs _ _ h _ _; simpa only [sumLoop] using h
  | cons f fs ih =>
    intro h0 hs hr hf hpw hpf hb
    have hf0 := hf f (by simp)
    have hs' : ∀ x ∈ hs, Rep p x := fun x hx => hr x (by simp [hx])
    have hf' : ∀ x ∈ fs, Rep p x := fun x hx => hf x (by simp [hx])
    have hg := grow_rep hp hs f hs' hf0
    obtain ⟨g0, gs, hg0, hle⟩ := grow_head hp hs' hf0
    rw [List.pairwise_cons] at hpw hpf
    have hgp := grow_pairwise hp hs f hs' hf0 hpw.2
    have hok := sumLoop_ok hp fs _ hg hf' (by rw [hg0]; simp)
    simp only [sumLoop, List.pairwise_cons]
    refine ⟨below_all hok.2.1 fun h => ?_, ?_⟩
    · obtain ⟨k, k1, _, k3⟩ := all_mul h (l := hs ++ f :: fs) (by
        intro y hy
        rw [List.mem_append] at hy
        rcases hy with hy | hy
        · exact hpw.1 y hy
        · exact hb y hy)
      exact ⟨k, k1, hok.2.2.2 k (grow_mul hp hs f hs' hf0 (fun y hy => k3 y (by simp [hy])) (k3 f (by simp))) fun y hy => k3 y (by simp [hy])⟩
    · rw [hg0] at hg hgp ⊢
      exact ih g0 gs hg hf' hgp hpf.2 fun y hy => (hpf.1 y hy).mono hle

theorem expansionSum_ok {p : Nat} (hp : 2 ≤ p) {e f : List ℚ} (he : ∀ x ∈ e, Rep p x) (hf : ∀ x ∈ f, Rep p x) (hne : f ≠ []) :
    (expansionSum p e f).sum = e.sum + f.sum ∧ (∀ x ∈ expansionSum p e f, Rep p x) ∧ (expansionSum p e f).length = e.length + f.length ∧
    (Nonoverlapping e → Nonoverlapping f → Nonoverlapping (expansionSum p e f)) := by
  obtain ⟨f0, fs, rfl⟩ := List.exists_cons_of_ne_nil hne
  have hf0 := hf f0 (by simp)
  have hf' : ∀ x ∈ fs, Rep p x := fun x hx => hf x (by simp [hx])
  have hg := grow_rep hp e f0 he hf0
  obtain ⟨g0, gs, hg0, hle⟩ := grow_head hp he hf0
  obtain ⟨i1, i2, i3, _⟩ := sumLoop_ok hp fs _ hg hf' (by rw [hg0]; simp)
  have hl := (C122_grow hp (e := e) (b := f0) (fun x hx => isFloat_iff.mpr (he x hx)) (isFloat_iff.mpr hf0)).2.2.1
  refine ⟨?_, i2, ?_, fun hne hnf => ?_⟩
  · rw [expansionSum, i1, grow_sum hp e f0 he hf0, List.sum_cons]; ring
  · rw [expansionSum, i3, hl, List.length_cons]; ring
  · rw [expansionSum, pairwise_iff i2]
    have hpf := (pairwise_iff hf).mp hnf
    rw [List.pairwise_cons] at hpf
    have hgp := grow_pairwise hp e f0 he hf0 ((pairwise_iff he).mp hne)
    rw [hg0] at hg hgp ⊢
    exact sumLoop_pairwise hp fs g0 gs hg hf' hgp hpf.2 fun y hy => (hpf.1 y hy).mono hle

/-- `expansion_sum`: the sum is exact, the components are floating point numbers, as many as both arguments have, and if those of the
arguments do not overlap, neither do those of the result; then the last one that is not zero has the sign of the sum. -/
theorem C122_sum {p : Nat} (hp : 2 ≤ p) {e f : List ℚ} (he : ∀ x ∈ e, IsFloat p x) (hf : ∀ x ∈ f, IsFloat p x) (hne : f ≠ []) :
    let h := expansionSum p e f
    h.sum = e.sum + f.sum ∧ (∀ x ∈ h, IsFloat p x) ∧ h.length = e.length + f.length ∧
    (Nonoverlapping e → Nonoverlapping f → Nonoverlapping h ∧ SignType.sign (topNonzero h) = SignType.sign (e.sum + f.sum)) := by
  simp only [isFloat_iff] at he hf ⊢
  obtain ⟨h1, h2, h3, h4⟩ := expansionSum_ok hp he hf hne
  exact ⟨h1, h2, h3, fun a b => ⟨h4 a b, by rw [← h1]; exact sign_topNonzero h2 (h4 a b)⟩⟩

/-- `expansion_sum_zeroelim1`: as `expansion_sum`, and the result has no zeros unless it is the single component 0; so its last component
has the sign of the sum. -/
theorem C122_sumZ1 {p : Nat} (hp : 2 ≤ p) {e f : List ℚ} (he : ∀ x ∈ e, IsFloat p x) (hf : ∀ x ∈ f, IsFloat p x) (hne : f ≠ []) :
    let h := expansionSumZ1 p e f
    h.sum = e.sum + f.sum ∧ (∀ x ∈ h, IsFloat p x) ∧ ((∀ x ∈ h, x ≠ 0) ∨ h = [0]) ∧
    (Nonoverlapping e → Nonoverlapping f → Nonoverlapping h ∧ SignType.sign (h.getLastD 0) = SignType.sign (e.sum + f.sum)) := by
  simp only [isFloat_iff] at he hf ⊢
  obtain ⟨h1, h2, h3, h4⟩ := expansionSum_ok hp he hf hne
  have key : (expansionSumZ1 p e f).filter (· ≠ 0) = (expansionSum p e f).filter (· ≠ 0) ∧
      ((∀ x ∈ expansionSumZ1 p e f, x ≠ 0) ∨ expansionSumZ1 p e f = [0]) ∧ ∀ x ∈ expansionSumZ1 p e f, x ∈ expansionSum p e f := by
    simp only [expansionSumZ1]
    split_ifs with hz
    · have hz' : ∀ x ∈ expansionSum p e f, x = 0 := by
        intro x hx
        by_contra hc
        have : x ∈ (expansionSum p e f).filter (· ≠ 0) := List.mem_filter.mpr ⟨hx, by simpa using hc⟩
        rw [hz] at this
        simp at this
      have hlen : 0 < (expansionSum p e f).length := by
        rw [h3]
        have := List.length_pos_of_ne_nil hne
        omega
      obtain ⟨y, ys, hy⟩ := List.exists_cons_of_ne_nil (List.ne_nil_of_length_pos hlen)
      have hy0 : y = 0 := hz' y (by rw [hy]; simp)
      rw [hz, hy, hy0]
      exact ⟨by simp, Or.inr (by simp), by simp⟩
    · refine ⟨by rw [List.filter_filter]; simp, Or.inl fun x hx => by simpa using (List.mem_filter.mp hx).2, fun x hx => (List.mem_filter.mp hx).1⟩
  obtain ⟨k1, k2, k3⟩ := key
  have s1 : (expansionSumZ1 p e f).sum = e.sum + f.sum := by rw [sum_congr k1, h1]
  have s2 : ∀ x ∈ expansionSumZ1 p e f, Rep p x := fun x hx => h2 x (k3 x hx)
  refine ⟨s1, s2, k2, fun a b => ?_⟩
  have s3 := (nonoverlapping_congr k1).mpr (h4 a b)
  exact ⟨s3, by rw [← s1, last_of_nonzero k2]; exact sign_topNonzero s2 s3⟩

private theorem growKeep_ok {p : Nat} (hp : 2 ≤ p) {h : List ℚ} {f : ℚ} (hr : ∀ x ∈ h, Rep p x) (hf : Rep p f) :
    (growKeep p h f).sum = h.sum + f ∧ (∀ x ∈ growKeep p h f, Rep p x) ∧ (Nonoverlapping h → Nonoverlapping (growKeep p h f)) ∧
    ∀ x ∈ (growKeep p h f).dropLast, x ≠ 0 := by
  have e : (growKeep p h f).filter (· ≠ 0) = (grow p h f).filter (· ≠ 0) := by
    simp [growKeep, growLoopZ_eq, grow, List.filter_append]
  refine ⟨by rw [sum_congr e]; exact grow_sum hp h f hr hf, ?_, fun hn => (nonoverlapping_congr e).mpr
    ((pairwise_iff (grow_rep hp h f hr hf)).mpr (grow_pairwise hp h f hr hf ((pairwise_iff hr).mp hn))), ?_⟩
  · intro x hx
    refine grow_rep hp h f hr hf x ?_
    simp only [growKeep, growLoopZ_eq, List.mem_append, List.mem_filter] at hx
    simp only [grow, List.mem_append]
    exact hx.imp And.left id
  · intro x hx
    simp only [growKeep, growLoopZ_eq, List.dropLast_concat, List.mem_filter] at hx
    simpa using hx.2

/-- `expansion_sum_zeroelim2`: as `expansion_sum`, and no component but the last is zero. -/
theorem C122_sumZ2_partial {p : Nat} (hp : 2 ≤ p) {e f : List ℚ} (he : ∀ x ∈ e, IsFloat p x) (hf : ∀ x ∈ f, IsFloat p x) (hne : f ≠ []) :
    let h := expansionSumZ2 p e f
    h.sum = e.sum + f.sum ∧ (∀ x ∈ h, IsFloat p x) ∧ (∀ x ∈ h.dropLast, x ≠ 0) ∧
    (Nonoverlapping e → Nonoverlapping h ∧ SignType.sign (topNonzero h) = SignType.sign (e.sum + f.sum)) := by
  simp only [isFloat_iff] at he hf ⊢
  have key : ∀ (fs : List ℚ) (h : List ℚ), (∀ x ∈ fs, Rep p x) → (∀ x ∈ h, Rep p x) → (∀ x ∈ h.dropLast, x ≠ 0) →
      (fs.foldl (growKeep p) h).sum = h.sum + fs.sum ∧ (∀ x ∈ fs.foldl (growKeep p) h, Rep p x) ∧
      (∀ x ∈ (fs.foldl (growKeep p) h).dropLast, x ≠ 0) ∧ (Nonoverlapping h → Nonoverlapping (fs.foldl (growKeep p) h)) := by
    intro fs
    induction fs with
    | nil => intro h _ hr hd; exact ⟨by simp, hr, hd, id⟩
    | cons f fs ih =>
      intro h hfs hr hd
      obtain ⟨g1, g2, g3, g4⟩ := growKeep_ok hp hr (hfs f (by simp))
      obtain ⟨i1, i2, i3, i4⟩ := ih (growKeep p h f) (fun x hx => hfs x (by simp [hx])) g2 g4
      refine ⟨?_, i2, i3, fun hn => i4 (g3 hn)⟩
      rw [List.foldl_cons, i1, g1, List.sum_cons]; ring
  obtain ⟨f0, fs, rfl⟩ := List.exists_cons_of_ne_nil hne
  obtain ⟨g1, g2, g3, g4⟩ := growKeep_ok hp he (hf f0 (by simp))
  obtain ⟨i1, i2, i3, i4⟩ := key fs (growKeep p e f0) (fun x hx => hf x (by simp [hx])) g2 g4
  have s1 : (expansionSumZ2 p e (f0 :: fs)).sum = e.sum + (f0 :: fs).sum := by rw [expansionSumZ2, i1, g1, List.sum_cons]; ring
  exact ⟨s1, i2, i3, fun hn => ⟨i4 (g3 hn), by rw [← s1]; exact sign_topNonzero i2 (i4 (g3 hn))⟩⟩

/-- `expansion_sum_zeroelim2` does not remove the last component if it is zero: the result for nonoverlapping arguments can end with a zero
though it is positive. -/
theorem C122_sumZ2_violated :
    let e : List ℚ := [1, 2 ^ 60]
    let f : List ℚ := [-2 ^ 60]
    Nonoverlapping e ∧ Nonoverlapping f ∧ expansionSumZ2 53 e f = [1, 0] ∧ expansionSumZ1 53 e f = [1] := by
  refine ⟨?_, ?_, by decide +kernel, by decide +kernel⟩
  · have e : ([1, 2 ^ 60] : List ℚ).filter (· ≠ 0) = [1, 2 ^ 60] := by norm_num [List.filter]
    rw [Nonoverlapping, e]
    simp only [List.pairwise_cons, List.mem_singleton, forall_eq, List.not_mem_nil, false_imp_iff, implies_true, List.Pairwise.nil, and_true]
    exact ⟨60, 1, by norm_num, by norm_num⟩
  · have e : ([-2 ^ 60] : List ℚ).filter (· ≠ 0) = [-2 ^ 60] := by norm_num [List.filter]
    rw [Nonoverlapping, e]
    exact List.pairwise_singleton _ _

/-! ### The fast sum -/

private theorem fastLoop_eq (p : Nat) (es fs : List ℚ) (Q : ℚ) :
    fesLoop p es fs Q = ((fastLoop p es fs Q).1.filter (· ≠ 0), (fastLoop p es fs Q).2) := by
  have key : ∀ (y : ℚ) (r : List ℚ), emit y (r.filter (· ≠ 0)) = (y :: r).filter (· ≠ 0) := by
    intro y r
    unfold emit
    split_ifs with h
    · rw [List.filter_cons_of_pos (by simpa using h)]
    · rw [List.filter_cons_of_neg (by simpa using h)]
  induction es, fs, Q using fesLoop.induct p with
  | case1 Q => simp [fesLoop, fastLoop]
  | case2 e es Q r ih => rw [fesLoop, fastLoop]; simp only [r] at ih; simp only [ih, key]
  | case3 f fs Q r ih => rw [fesLoop, fastLoop]; simp only [r] at ih; simp only [ih, key]
  | case4 e es f fs Q hpick r ih => rw [fesLoop, fastLoop, if_pos hpick, if_pos hpick]; simp only [r] at ih; simp only [ih, key]
  | case5 e es f fs Q hpick r ih => rw [fesLoop, fastLoop, if_neg hpick, if_neg hpick]; simp only [r] at ih; simp only [ih, key]

private theorem fastRest_eq (p : Nat) (es fs : List ℚ) (Q : ℚ) :
    fesRest p es fs Q = ((fastRest p es fs Q).1.filter (· ≠ 0), (fastRest p es fs Q).2) := by
  have key : ∀ (y : ℚ) (r : List ℚ), emit y (r.filter (· ≠ 0)) = (y :: r).filter (· ≠ 0) := by
    intro y r
    unfold emit
    split_ifs with h
    · rw [List.filter_cons_of_pos (by simpa using h)]
    · rw [List.filter_cons_of_neg (by simpa using h)]
  cases es with
  | nil => exact fastLoop_eq p _ _ _
  | cons e es =>
    cases fs with
    | nil => exact fastLoop_eq p _ _ _
    | cons f fs =>
      simp only [fesRest, fastRest]
      split_ifs <;> simp only [fastLoop_eq, key]

/-- `fast_expansion_sum`: without its zeros the result is that of `fast_expansion_sum_zeroelim`; so for expansions that the functions of the
predicates compute the sum is exact and the last component that is not zero has its sign. -/
theorem C122_fast {p : Nat} (hp : 11 ≤ p) {e f : List ℚ} {V W : ℚ} (he : Computed p e V) (hf : Computed p f W) :
    let h := fastSum p e f
    h.filter (· ≠ 0) = (fes p e f).filter (· ≠ 0) ∧ h.sum = V + W ∧ SignType.sign (topNonzero h) = SignType.sign (V + W) := by
  obtain ⟨e0, es, rfl⟩ := List.exists_cons_of_ne_nil (he.expn hp).ne
  obtain ⟨f0, fs, rfl⟩ := List.exists_cons_of_ne_nil (hf.expn hp).ne
  have hC := C90_sum hp he hf
  have hz := fes_ok (show 5 ≤ p by omega) (he.expn hp) (hf.expn hp)
  simp only at hC
  have hfes : fes p (e0 :: es) (f0 :: fs) = finish (((if pickE e0 f0 then fastRest p es (f0 :: fs) e0 else fastRest p (e0 :: es) fs f0)).1.filter (· ≠ 0),
      ((if pickE e0 f0 then fastRest p es (f0 :: fs) e0 else fastRest p (e0 :: es) fs f0)).2) := by
    rw [fes]; split_ifs <;> rw [fastRest_eq]
  obtain ⟨f1, f2, _⟩ := finish_filter ((if pickE e0 f0 then fastRest p es (f0 :: fs) e0 else fastRest p (e0 :: es) fs f0)).1
    ((if pickE e0 f0 then fastRest p es (f0 :: fs) e0 else fastRest p (e0 :: es) fs f0)).2
  rw [← hfes] at f1 f2
  have h1 : (fastSum p (e0 :: es) (f0 :: fs)).filter (· ≠ 0) = (fes p (e0 :: es) (f0 :: fs)).filter (· ≠ 0) := by rw [f1, fastSum]
  refine ⟨h1, by rw [sum_congr h1]; exact hC.1, ?_⟩
  rw [topNonzero, h1, ← topNonzero, ← last_of_nonzero f2]
  exact hC.2.2.1

/-! ### Multiplying -/

private theorem scaleAllLoop_ok {p : Nat} (hp : 4 ≤ p) {b : ℚ} (hb : Rep p b) (es : List ℚ) : ∀ Q, (∀ x ∈ es, Rep p x) → Rep p Q →
    let t := scaleAllLoop p (2 ^ half p + 1) b es Q
    t.1.sum + t.2 = Q + es.sum * b ∧ (∀ x ∈ t.1, Rep p x) ∧ Rep p t.2 ∧ t.1.length = 2 * es.length := by
  induction es with
  | nil => intro Q _ hQ; simp [scaleAllLoop, hQ]
  | cons e es ih =>
    intro Q he hQ
    have hp0 : 0 < p := by omega
    have h0 := he e (by simp)
    have r1 := prod_err_rep (by omega) h0 hb
    have r2 := rep_rnd hp0 (e * b)
    simp only [scaleAllLoop, twoProduct_eq hp h0 hb]
    rw [twoSum_eq (by omega) hQ r1]
    simp only
    have r3 := rep_rnd hp0 (Q + (e * b - rnd p (e * b)))
    rw [twoSum_eq (by omega) r2 r3]
    obtain ⟨i1, i2, i3, i4⟩ := ih (rnd p (rnd p (e * b) + rnd p (Q + (e * b - rnd p (e * b))))) (fun x hx => he x (by simp [hx])) (rep_rnd hp0 _)
    simp only at i1 i2 i3 i4 ⊢
    refine ⟨?_, ?_, i3, by simp only [List.length_cons, i4]; ring⟩
    · simp only [List.sum_cons]
      linarith
    · intro x hx
      simp only [List.mem_cons] at hx
      rcases hx with rfl | rfl | hx
      · exact sum_err_rep hp0 hQ r1
      · exact sum_err_rep hp0 r2 r3
      · exact i2 x hx

/-- `scale_expansion`: the product is exact, the components are floating point numbers, twice as many as in the argument. -/
theorem C122_scale {p : Nat} (hp : 4 ≤ p) {e : List ℚ} {b : ℚ} (he : ∀ x ∈ e, IsFloat p x) (hb : IsFloat p b) (hne : e ≠ []) :
    let h := scaleAll p (2 ^ ((p + 1) / 2) + 1) e b
    h.sum = e.sum * b ∧ (∀ x ∈ h, IsFloat p x) ∧ h.length = 2 * e.length := by
  have hs : (2 : ℚ) ^ ((p + 1) / 2) + 1 = 2 ^ half p + 1 := by unfold half; rfl
  rw [hs]
  simp only [isFloat_iff] at he hb ⊢
  obtain ⟨e0, es, rfl⟩ := List.exists_cons_of_ne_nil hne
  have h0 := he e0 (by simp)
  obtain ⟨i1, i2, i3, i4⟩ := scaleAllLoop_ok hp hb es (rnd p (e0 * b)) (fun x hx => he x (by simp [hx])) (rep_rnd (by omega) _)
  simp only [scaleAll, twoProduct_eq hp h0 hb]
  refine ⟨?_, ?_, ?_⟩
  · simp only [List.sum_cons, List.sum_append, List.sum_nil, add_zero]
    linarith
  · intro x hx
    simp only [List.mem_cons, List.mem_append, List.not_mem_nil, or_false] at hx
    rcases hx with rfl | hx | rfl
    · exact prod_err_rep (by omega) h0 hb
    · exact i2 x hx
    · exact i3
  · simp only [List.length_cons, List.length_append, List.length_nil, i4]; ring

/-! ### Examples -/

private theorem ex1 : Nonoverlapping [1, 2 ^ 60] := C122_sumZ2_violated.1

private theorem exf : ∀ x ∈ ([1, 2 ^ 60] : List ℚ), IsFloat 53 x := by
  intro x hx
  simp only [List.mem_cons, List.not_mem_nil, or_false] at hx
  rcases hx with rfl | rfl
  · exact ⟨1, 0, by norm_num, by norm_num⟩
  · exact ⟨1, 60, by norm_num, by norm_num⟩

example : grow 53 [1, 2 ^ 60] (-3) = [0, -2, 2 ^ 60] ∧ growZ 53 [1, 2 ^ 60] (-3) = [-2, 2 ^ 60] := by decide +kernel

example : SignType.sign ((growZ 53 [1, 2 ^ 60] (-3)).getLastD 0) = SignType.sign (([1, 2 ^ 60] : List ℚ).sum + -3) :=
  ((C122_growZ (by norm_num) exf ⟨-3, 0, by norm_num, by norm_num⟩).2.2.2 ex1).2

example : expansionSum 53 [1, 2 ^ 60] [1, 2 ^ 60] = [0, 2, 0, 2 ^ 61] ∧ Nonoverlapping (expansionSum 53 [1, 2 ^ 60] [1, 2 ^ 60]) :=
  ⟨by decide +kernel, ((C122_sum (by norm_num) exf exf (by simp)).2.2.2 ex1 ex1).1⟩

example : (expansionSumZ1 53 [1, 2 ^ 60] [1, 2 ^ 60]).sum = 2 + 2 ^ 61 := by
  rw [(C122_sumZ1 (by norm_num) exf exf (by simp)).1]; norm_num

example : (expansionSumZ2 53 [1, 2 ^ 60] [1, 2 ^ 60]).sum = 2 + 2 ^ 61 := by
  rw [(C122_sumZ2_partial (by norm_num) exf exf (by simp)).1]; norm_num

example : (scaleAll 53 (2 ^ 27 + 1) [1, 2 ^ 60] (2 ^ 60)).sum = 2 ^ 60 + 2 ^ 120 := by
  refine (C122_scale (p := 53) (b := 2 ^ 60) (by norm_num) exf ⟨1, 60, by norm_num, by norm_num⟩ (by simp)).1.trans ?_
  norm_num

example : (fastSum 53 [1, 2 ^ 53 + 4] [-(2 ^ 53 + 10)]).sum = -5 := by
  have hf : ∀ x ∈ ([1, 2 ^ 53 + 4] : List ℚ), IsFloat 53 x := by
    intro x hx
    simp only [List.mem_cons, List.not_mem_nil, or_false] at hx
    rcases hx with rfl | rfl
    · exact ⟨1, 0, by norm_num, by norm_num⟩
    · exact ⟨2 ^ 51 + 1, 2, by norm_num, by norm_num⟩
  have hg : ∀ x ∈ ([-(2 ^ 53 + 10)] : List ℚ), IsFloat 53 x := by
    intro x hx
    simp only [List.mem_cons, List.not_mem_nil, or_false] at hx
    subst hx
    exact ⟨-(2 ^ 52 + 5), 1, by norm_num, by norm_num⟩
  have := (C122_fast (p := 53) (by norm_num) (Computed.given _ (by simp) hf strong_example) (Computed.given _ (by simp) hg (strong_single _))).2.1
  rw [this]
  norm_num

end FP
end Verif
