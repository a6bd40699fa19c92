import Verif.Lemmas.Orient2
import Verif.Props.EFT

/-!
# Exact arithmetic with expansions (C90)
-/
namespace Verif
namespace FP

/-! ### The property that the code asks for -/

/-- All digits of `x` are below those of `y`. -/
def Below (x y : ℚ) : Prop := ∃ k r : Int, y = r * 2 ^ k ∧ |x| < 2 ^ k

/-- No zero digit lies between `x` and `y`. -/
def Adjacent (x y : ℚ) : Prop := ¬ Below (2 * x) y

def IsPow (x : ℚ) : Prop := ∃ k : Int, |x| = 2 ^ k

/-- Strongly nonoverlapping, up to zeros: the digits of a component are below those of the next ones, adjacent components are powers of
two, and no component is adjacent to two others. -/
structure Strong (l : List ℚ) : Prop where
  below : (l.filter (· ≠ 0)).Pairwise Below
  pow : (l.filter (· ≠ 0)).Pairwise fun x y => Adjacent x y → IsPow x ∧ IsPow y
  two : ∀ x y z, [x, y, z].Sublist (l.filter (· ≠ 0)) → ¬ (Adjacent x y ∧ Adjacent y z)

private structure Str (m : List ℚ) : Prop where
  below : m.Pairwise Below
  pow : m.Pairwise fun x y => Adjacent x y → IsPow x ∧ IsPow y
  two : ∀ x y z, [x, y, z].Sublist m → ¬ (Adjacent x y ∧ Adjacent y z)

private theorem Str.sub {m n : List ℚ} (h : Str m) (hs : n.Sublist m) : Str n :=
  ⟨h.below.sublist hs, h.pow.sublist hs, fun x y z hx => h.two x y z (hx.trans hs)⟩

private theorem below_lsb {x y : ℚ} {k : Int} (hk : IsLsb k y) : Below x y ↔ |x| < 2 ^ k := by
  constructor
  · rintro ⟨j, r, h, h'⟩
    exact h'.trans_le (two_zpow_le (hk.max ⟨r, h⟩))
  · intro h
    obtain ⟨r, hr⟩ := hk.mul
    exact ⟨k, r, hr, h⟩

private theorem pow_lsb {x : ℚ} {k : Int} (hk : IsLsb k x) (h : IsPow x) : |x| = 2 ^ k := by
  obtain ⟨j, hj⟩ := h
  have h1 : Mul j x := by
    rcases abs_choice x with e | e
    · rw [← e, hj]; exact Mul.self j
    · have h2 := (Mul.self j).neg
      rw [← hj, e, neg_neg] at h2; exact h2
  have h2 := hk.le_abs
  rw [hj] at h2 ⊢
  exact le_antisymm (two_zpow_le (hk.max h1)) h2

private theorem str_bound {p : Nat} (pre : List ℚ) : ∀ (y : ℚ) (k : Int), (∀ x ∈ pre, Rep p x ∧ x ≠ 0) → Str (pre ++ [y]) → IsLsb k y →
    asum pre ≤ 3 / 4 * 2 ^ k ∧ ((∀ x ∈ pre, ¬ Adjacent x y) → asum pre ≤ 2 ^ k / 2) := by
  induction pre using List.reverseRecOn with
  | nil => intro y k _ _ _; have := two_zpow_pos k; simp; constructor <;> linarith
  | append_singleton m x ih =>
    intro y k hr hs hk
    have hx := hr x (by simp)
    obtain ⟨j, hj⟩ := hx.1.lsb hx.2
    have hm := ih x j (fun z hz => hr z (by simp [hz])) (hs.sub (by simp)) hj
    have hpw := two_zpow_pos k
    have hkp : (2 : ℚ) ^ (k - 1) = 2 ^ k / 2 := by
      have := two_zpow_succ (k - 1)
      rw [sub_add_cancel] at this; linarith
    rw [asum_append, asum_cons, asum_nil, add_zero]
    have hxy : [x, y].Sublist (m ++ [x] ++ [y]) := by simp
    have hjk : (2 : ℚ) ^ j ≤ |x| := hj.le_abs
    by_cases had : Adjacent x y
    · have hpow := (List.pairwise_cons.mp (hs.pow.sublist hxy)).1 y (by simp) had
      have hxj := pow_lsb hj hpow.1
      have hb : |x| < 2 ^ k := (below_lsb hk).mp ((List.pairwise_cons.mp (hs.below.sublist hxy)).1 y (by simp))
      have hnot : ∀ z ∈ m, ¬ Adjacent z x := by
        intro z hz hzx
        refine hs.two z x y ?_ ⟨hzx, had⟩
        rw [List.append_assoc]
        exact (List.singleton_sublist.mpr hz).append (by simp)
      have h1 := hm.2 hnot
      rw [hxj] at hb ⊢
      have h2 : (2 : ℚ) ^ j ≤ 2 ^ (k - 1) := two_zpow_le (by have := lt_of_two_zpow hb; omega)
      refine ⟨by linarith, fun h => absurd had (h x (by simp))⟩
    · have hb : |2 * x| < 2 ^ k := (below_lsb hk).mp (not_not.mp had)
      rw [abs_mul, abs_of_pos (by norm_num : (0 : ℚ) < 2)] at hb
      have hb' : |x| < 2 ^ (k - 1) := by linarith
      have hjk' : j ≤ k - 1 := by
        have := lt_of_two_zpow (lt_of_le_of_lt hjk hb'); omega
      have h1 := Mul.le_sub hj.mul.abs (Mul.pow hjk') hb'
      have h2 := hm.1
      have h3 := two_zpow_pos j
      constructor
      · linarith
      · intro _; linarith

private theorem goodFrom_filter {S : ℚ} {l : List ℚ} (h : GoodFrom S (l.filter (· ≠ 0))) : GoodFrom S l := by
  induction l generalizing S with
  | nil => trivial
  | cons x l ih =>
    by_cases h0 : x = 0
    · subst h0
      refine ⟨fun k hk => absurd rfl hk.ne_zero, ?_⟩
      rw [abs_zero, add_zero]
      exact ih (by simpa using h)
    · rw [List.filter_cons_of_pos (by simpa using h0)] at h
      exact ⟨h.1, ih h.2⟩

private theorem str_good {p : Nat} (m : List ℚ) : ∀ pre : List ℚ, (∀ x ∈ pre ++ m, Rep p x ∧ x ≠ 0) → Str (pre ++ m) → GoodFrom (asum pre) m := by
  induction m with
  | nil => intro _ _ _; trivial
  | cons y m ih =>
    intro pre hr hs
    refine ⟨fun k hk => ?_, ?_⟩
    · exact (str_bound pre y k (fun x hx => hr x (by simp [hx])) (hs.sub (by simp)) hk).1
    · have := ih (pre ++ [y]) (by simpa using hr) (by simpa using hs)
      rwa [asum_append, asum_cons, asum_nil, add_zero] at this

theorem strong_expn {p : Nat} {l : List ℚ} (hr : ∀ x ∈ l, IsFloat p x) (h : Strong l) (hne : l ≠ []) : Expn p l.sum l := by
  refine ⟨goodFrom_filter ?_, fun x hx => isFloat_iff.mp (hr x hx), rfl, hne⟩
  have := str_good (p := p) (l.filter (· ≠ 0)) [] (by
    intro x hx
    simp only [List.nil_append, List.mem_filter, decide_eq_true_eq] at hx
    exact ⟨isFloat_iff.mp (hr x hx.1), hx.2⟩) ⟨h.below, h.pow, h.two⟩
  simpa using this

/-! ### Results -/

/-- The expansion `l` has been computed by the functions of the code, in place of the number `V`: from strongly nonoverlapping expansions
and differences of products of floating point numbers, by sums and by products with floating point numbers. -/
inductive Computed (p : Nat) : List ℚ → ℚ → Prop
  | given (l : List ℚ) : l ≠ [] → (∀ x ∈ l, IsFloat p x) → Strong l → Computed p l l.sum
  | diff (a b c d : ℚ) : IsFloat p a → IsFloat p b → IsFloat p c → IsFloat p d →
      Computed p (diff4 p (2 ^ ((p + 1) / 2) + 1) a b c d) (a * b - c * d)
  | sum (e f : List ℚ) (V W : ℚ) : Computed p e V → Computed p f W → Computed p (fes p e f) (V + W)
  | scale (e : List ℚ) (V b : ℚ) : Computed p e V → IsFloat p b → Computed p (scale p (2 ^ ((p + 1) / 2) + 1) e b) (V * b)

theorem Computed.expn {p : Nat} (hp : 11 ≤ p) {l : List ℚ} {V : ℚ} (h : Computed p l V) : Expn p V l := by
  have hs : (2 : ℚ) ^ ((p + 1) / 2) + 1 = 2 ^ half p + 1 := by unfold half; rfl
  induction h with
  | given l h1 h2 h3 => exact strong_expn h2 h3 h1
  | diff a b c d ha hb hc hd =>
    rw [hs]
    exact (diff4_ok (by omega) (isFloat_iff.mp ha) (isFloat_iff.mp hb) (isFloat_iff.mp hc) (isFloat_iff.mp hd)).expn (by omega)
  | sum e f V W _ _ h1 h2 => exact (fes_ok (by omega) h1 h2).toExpn
  | scale e V b _ hb h1 => rw [hs]; exact (scale_ok hp h1 (isFloat_iff.mp hb)).toExpn

/-- Sums and products of computed expansions are exact. Their last component has the sign of the result and differs from it by at most
three quarters of its magnitude. -/
theorem C90_sum {p : Nat} (hp : 11 ≤ p) {e f : List ℚ} {V W : ℚ} (he : Computed p e V) (hf : Computed p f W) :
    let h := fes p e f
    h.sum = V + W ∧ (∀ x ∈ h, IsFloat p x) ∧ SignType.sign (h.getLastD 0) = SignType.sign (V + W) ∧
    |V + W - h.getLastD 0| ≤ 3 / 4 * |h.getLastD 0| := by
  have h := fes_ok (show 5 ≤ p by omega) (he.expn hp) (hf.expn hp)
  refine ⟨h.sum, fun x hx => isFloat_iff.mpr (h.rep x hx), h.sign, ?_⟩
  by_cases h0 : top (fes p e f) = 0
  · have := h.zero h0
    rw [this]
    unfold top at h0
    rw [h0]; simp
  · exact h.toExpn.top_le h0

theorem C90_scale {p : Nat} (hp : 11 ≤ p) {e : List ℚ} {V b : ℚ} (he : Computed p e V) (hb : IsFloat p b) :
    let h := scale p (2 ^ ((p + 1) / 2) + 1) e b
    h.sum = V * b ∧ (∀ x ∈ h, IsFloat p x) ∧ SignType.sign (h.getLastD 0) = SignType.sign (V * b) ∧
    |V * b - h.getLastD 0| ≤ 3 / 4 * |h.getLastD 0| := by
  have hs : (2 : ℚ) ^ ((p + 1) / 2) + 1 = 2 ^ half p + 1 := by unfold half; rfl
  rw [hs]
  have h := scale_ok hp (he.expn hp) (isFloat_iff.mp hb)
  refine ⟨h.sum, fun x hx => isFloat_iff.mpr (h.rep x hx), h.sign, ?_⟩
  by_cases h0 : top (scale p (2 ^ half p + 1) e b) = 0
  · have := h.zero h0
    rw [this]
    unfold top at h0
    rw [h0]; simp
  · exact h.toExpn.top_le h0

theorem C90_diff {p : Nat} (hp : 11 ≤ p) {a b c d : ℚ} (ha : IsFloat p a) (hb : IsFloat p b) (hc : IsFloat p c) (hd : IsFloat p d) :
    (diff4 p (2 ^ ((p + 1) / 2) + 1) a b c d).sum = a * b - c * d :=
  ((Computed.diff a b c d ha hb hc hd).expn hp).sum

/-- Numbers are floating point numbers. -/
theorem isFloat_int {p : Nat} (m : Int) (h : |m| < 2 ^ p) : IsFloat p (m : ℚ) := ⟨m, 0, h, by simp⟩

/-- The components of the example below. -/
theorem strong_example : Strong [1, 2 ^ 53 + 4] := by
  have e : ([1, 2 ^ 53 + 4] : List ℚ).filter (· ≠ 0) = [1, 2 ^ 53 + 4] := by norm_num [List.filter]
  have hb : Below (2 * 1) (2 ^ 53 + 4) := ⟨2, 2 ^ 51 + 1, by norm_num, by norm_num⟩
  constructor
  · rw [e]
    refine List.pairwise_pair.mpr ⟨2, 2 ^ 51 + 1, by norm_num, by norm_num⟩
  · rw [e]
    exact List.pairwise_pair.mpr fun h => absurd hb h
  · rw [e]
    intro x y z hs
    have := hs.length_le
    simp at this

theorem strong_single (x : ℚ) : Strong [x] := by
  have hl : ([x].filter (· ≠ 0)).length ≤ 1 := List.length_filter_le _ _
  refine ⟨?_, ?_, ?_⟩
  · by_cases h : x = 0 <;> simp [h]
  · by_cases h : x = 0 <;> simp [h]
  · intro a b c hs
    have := hs.length_le
    simp only [List.length_cons, List.length_nil] at this hl
    omega

private theorem fes_example : fes 53 [1, 2 ^ 53 + 4] [-(2 ^ 53 + 10)] = [1, -6] := by decide +kernel

example : let h := fes 53 [1, 2 ^ 53 + 4] [-(2 ^ 53 + 10)]; h.sum = -5 ∧ SignType.sign (h.getLastD 0) = -1 := by
  have h := C90_sum (p := 53) (by norm_num) (.given [1, 2 ^ 53 + 4] (by simp) (by
    intro x hx
    simp at hx
    rcases hx with rfl | rfl
    · exact ⟨1, 0, by norm_num, by norm_num⟩
    · exact ⟨2 ^ 52 + 2, 1, by norm_num, by norm_num⟩) strong_example)
    (.given [-(2 ^ 53 + 10)] (by simp) (by
    intro x hx
    simp only [List.mem_singleton] at hx
    rw [hx]
    exact ⟨-(2 ^ 52 + 5), 1, by norm_num, by norm_num⟩) (strong_single _))
  refine ⟨h.1.trans (by norm_num), h.2.2.1.trans ?_⟩
  rw [sign_neg]; norm_num

example : (scale 53 (2 ^ 27 + 1) [1 / 2 ^ 60, 3] 5).sum = 15 + 5 / 2 ^ 60 := by
  have hs : Strong [1 / 2 ^ 60, 3] := by
    have e : ([1 / 2 ^ 60, 3] : List ℚ).filter (· ≠ 0) = [1 / 2 ^ 60, 3] := by norm_num [List.filter]
    have hb : Below (2 * (1 / 2 ^ 60)) 3 := ⟨0, 3, by norm_num, by norm_num [abs_lt]⟩
    constructor
    · rw [e]; exact List.pairwise_pair.mpr ⟨0, 3, by norm_num, by norm_num [abs_lt]⟩
    · rw [e]; exact List.pairwise_pair.mpr fun h => absurd hb h
    · rw [e]; intro x y z hs
      have := hs.length_le
      simp at this
  have h := C90_scale (p := 53) (by norm_num) (b := 5) (.given [1 / 2 ^ 60, 3] (by simp) (by
    intro x hx
    simp at hx
    rcases hx with rfl | rfl
    · exact ⟨1, -60, by norm_num, by norm_num [zpow_neg]⟩
    · exact ⟨3, 0, by norm_num, by norm_num⟩) hs) ⟨5, 0, by norm_num, by norm_num⟩
  refine h.1.trans (by norm_num)

/-- The comments at `fast_expansion_sum_zeroelim` and `scale_expansion_zeroelim` say that the results are strongly nonoverlapping if the
arguments are. They need not be, with double precision. -/
theorem C90_strong_violated :
    (∃ e f : List ℚ, (∀ x ∈ e ++ f, IsFloat 53 x) ∧ Strong e ∧ Strong f ∧ ¬ Strong (fes 53 e f)) ∧
    ∃ (e : List ℚ) (b : ℚ), (∀ x ∈ b :: e, IsFloat 53 x) ∧ Strong e ∧ ¬ Strong (scale 53 (2 ^ 27 + 1) e b) := by
  constructor
  · refine ⟨[1, 2 ^ 53 + 4], [-(2 ^ 53 + 10)], ?_, strong_example, strong_single _, ?_⟩
    · intro x hx
      simp only [List.cons_append, List.nil_append, List.mem_cons, List.not_mem_nil, or_false] at hx
      rcases hx with rfl | rfl | rfl
      · exact ⟨1, 0, by norm_num, by norm_num⟩
      · exact ⟨2 ^ 52 + 2, 1, by norm_num, by norm_num⟩
      · exact ⟨-(2 ^ 52 + 5), 1, by norm_num, by norm_num⟩
    · rw [fes_example]
      intro hs
      have e : ([1, -6] : List ℚ).filter (· ≠ 0) = [1, -6] := by norm_num [List.filter]
      have hl : IsLsb 1 (-6 : ℚ) := ⟨-3, by decide, by norm_num⟩
      have h := hs.pow
      rw [e] at h
      have h6 := (List.pairwise_pair.mp h (by
        unfold Adjacent
        rw [below_lsb hl]; norm_num)).2
      have := pow_lsb hl h6
      norm_num at this
  · refine ⟨[-3, -8, 16], 2 ^ 53 - 5, ?_, ?_, ?_⟩
    · intro x hx
      simp only [List.mem_cons, List.not_mem_nil, or_false] at hx
      rcases hx with rfl | rfl | rfl | rfl
      · exact ⟨2 ^ 53 - 5, 0, by norm_num, by norm_num⟩
      · exact ⟨-3, 0, by norm_num, by norm_num⟩
      · exact ⟨-1, 3, by norm_num, by norm_num⟩
      · exact ⟨1, 4, by norm_num, by norm_num⟩
    · have e : ([-3, -8, 16] : List ℚ).filter (· ≠ 0) = [-3, -8, 16] := by norm_num [List.filter]
      have b1 : Below (2 * -3) (-8) := ⟨3, -1, by norm_num, by norm_num⟩
      have b2 : Below (2 * -3) 16 := ⟨4, 1, by norm_num, by norm_num⟩
      constructor
      · rw [e]
        refine List.pairwise_cons.mpr ⟨?_, List.pairwise_pair.mpr ⟨4, 1, by norm_num, by norm_num⟩⟩
        intro y hy
        simp at hy
        rcases hy with rfl | rfl
        · exact ⟨3, -1, by norm_num, by norm_num⟩
        · exact ⟨4, 1, by norm_num, by norm_num⟩
      · rw [e]
        refine List.pairwise_cons.mpr ⟨?_, List.pairwise_pair.mpr fun _ => ⟨⟨3, by norm_num⟩, ⟨4, by norm_num⟩⟩⟩
        intro y hy
        simp at hy
        rcases hy with rfl | rfl
        · exact fun h => absurd b1 h
        · exact fun h => absurd b2 h
      · rw [e]
        intro x y z hs
        have := hs.eq_of_length (by simp)
        simp only [List.cons.injEq, and_true] at this
        obtain ⟨rfl, rfl, rfl⟩ := this
        exact fun h => h.1 b1
    · have e0 : scale 53 (2 ^ 27 + 1) [-3, -8, 16] (2 ^ 53 - 5) = [-1, -8, 45035996273704944] := by decide +kernel
      rw [e0]
      intro hs
      have e : ([-1, -8, 45035996273704944] : List ℚ).filter (· ≠ 0) = [-1, -8, 45035996273704944] := by norm_num [List.filter]
      have hl : IsLsb 4 (45035996273704944 : ℚ) := ⟨2814749767106559, by decide, by norm_num⟩
      have h := hs.pow
      rw [e] at h
      have h6 := (List.pairwise_pair.mp (List.pairwise_cons.mp h).2 (by
        unfold Adjacent
        rw [below_lsb hl]; norm_num)).2
      have := pow_lsb hl h6
      norm_num at this

end FP
end Verif
