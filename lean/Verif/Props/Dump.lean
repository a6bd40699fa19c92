import Mathlib.Tactic.Ring
import Mathlib.Tactic.Linarith
import Mathlib.Tactic.FieldSimp
import Mathlib.Tactic.NormNum
import Mathlib.Data.Fin.VecNotation
import Verif.Model.Dump
import Verif.Props.Load
import Verif.Props.BenchRun

/-!
# C119: dumped points are loaded as they were generated
-/
namespace Verif
namespace Dump
open Report

theorem nearest_near {y : ℚ} (h0 : 0 ≤ y) : |(nearest y : ℚ) - y| ≤ 1 / 2 := by
  have h1 := Nat.floor_le h0
  have h2 := Nat.lt_floor_add_one y
  unfold nearest
  rw [abs_le]
  generalize ⌊y⌋₊ = f at *
  split_ifs with h3 h4 h5 <;> push_cast <;> constructor <;> linarith

theorem micro_near (x : ℚ) : |(micro x : ℚ) - |x| * 10 ^ 6| ≤ 1 / 2 :=
  nearest_near (mul_nonneg (abs_nonneg x) (by norm_num))

theorem value_append (a b : List Char) : value (a ++ b) = value a * 10 ^ b.length + value b := by
  unfold value
  rw [List.foldl_append]
  generalize List.foldl _ 0 a = v
  induction b using List.reverseRecOn with
  | nil => simp
  | append_singleton b c ih =>
    simp only [List.foldl_append, List.foldl_cons, List.foldl_nil, List.length_append, List.length_singleton, ih]
    ring

theorem value_six (m : Nat) : value (six m) = m % 1000000 := by
  simp only [value, six, List.foldl_cons, List.foldl_nil, Bench.digit_toNat]
  omega

theorem six_digits (m : Nat) : ∀ c ∈ six m, isDigit c = true := by
  have h : ∀ n, isDigit (digit n) = true := by
    intro n
    simp only [isDigit, Bench.digit_toNat, Bool.and_eq_true, decide_eq_true_eq]
    omega
  intro c hc
  simp only [six, List.mem_cons, List.not_mem_nil, or_false] at hc
  rcases hc with rfl | rfl | rfl | rfl | rfl | rfl <;> exact h _

theorem nat_isDigit (n : Nat) : ∀ c ∈ nat n, isDigit c = true := by
  intro c hc
  have := Bench.nat_digits n c hc
  simp only [isDigit, Bool.and_eq_true, decide_eq_true_eq]
  exact this

theorem takeWhile_all {p : Char → Bool} {a b : List Char} (ha : ∀ c ∈ a, p c = true) (hb : b.head?.all (fun c => !p c) = true) :
    (a ++ b).takeWhile p = a ∧ (a ++ b).dropWhile p = b := by
  induction a with
  | nil =>
    cases b with
    | nil => simp
    | cons c b =>
      have : p c = false := by simpa using hb
      simp [this]
  | cons c a ih =>
    have h1 := ha c (by simp)
    obtain ⟨h2, h3⟩ := ih fun c hc => ha c (by simp [hc])
    simp [h1, h2, h3]

theorem unsigned_fixed (m : Nat) : unsigned (nat (m / 1000000) ++ '.' :: six m) = some ((m : ℚ) / 10 ^ 6) := by
  obtain ⟨h1, h2⟩ := takeWhile_all (b := '.' :: six m) (nat_isDigit (m / 1000000)) (by rfl)
  have h3 : (six m).takeWhile isDigit = six m := by
    have := (takeWhile_all (a := six m) (b := []) (six_digits m) rfl).1
    simpa using this
  unfold unsigned
  simp only [h1, h2, h3]
  rw [if_neg (Bench.nat_ne_nil _), value_append, value_six]
  have h4 : value (nat (m / 1000000)) = m / 1000000 := Bench.nat_value _
  have h5 : (six m).length = 6 := rfl
  rw [h4, h5]
  congr 2
  have : m / 1000000 * 10 ^ 6 + m % 1000000 = m := by omega
  exact_mod_cast this

/-- Value of the printed text. -/
def shown (x : ℚ) : ℚ := if x < 0 then -((micro x : ℚ) / 10 ^ 6) else (micro x : ℚ) / 10 ^ 6

theorem decimal_fixed (x : ℚ) : decimal (fixed x) = some (shown x) := by
  unfold fixed shown
  split_ifs with h
  · show (unsigned (nat (micro x / 1000000) ++ '.' :: six (micro x))).map _ = _
    rw [unsigned_fixed]
    rfl
  · rw [List.nil_append]
    have h1 : decimal (nat (micro x / 1000000) ++ '.' :: six (micro x)) =
        unsigned (nat (micro x / 1000000) ++ '.' :: six (micro x)) := by
      rcases hn : nat (micro x / 1000000) with - | ⟨c, l⟩
      · exact absurd hn (Bench.nat_ne_nil _)
      · have hc := nat_isDigit (micro x / 1000000) c (by rw [hn]; simp)
        rw [List.cons_append]
        unfold decimal
        split
        · rename_i heq
          simp only [List.cons.injEq] at heq
          rw [heq.1] at hc
          exact absurd hc (by decide)
        · rfl
    rw [h1, unsigned_fixed]

theorem shown_near (x : ℚ) : |shown x - x| ≤ 1 / 2 / 10 ^ 6 := by
  have h := micro_near x
  rw [abs_le] at h
  unfold shown
  rw [abs_le]
  split_ifs with hx
  · rw [abs_of_neg hx] at h
    constructor <;> linarith [h.1, h.2]
  · rw [abs_of_nonneg (not_lt.1 hx)] at h
    constructor <;> linarith [h.1, h.2]

theorem shown_int (x : ℚ) : ∃ k : ℤ, shown x * 10 ^ 6 = k := by
  unfold shown
  split_ifs
  · exact ⟨-(micro x : ℤ), by push_cast; ring⟩
  · exact ⟨(micro x : ℤ), by push_cast; ring⟩

theorem shown_exact {x : ℚ} (h : ∃ k : ℤ, x * 10 ^ 6 = k) : shown x = x := by
  obtain ⟨k, hk⟩ := h
  obtain ⟨l, hl⟩ := shown_int x
  have h1 := shown_near x
  rw [abs_le] at h1
  have h2 : ((l - k : ℤ) : ℚ) < 1 := by push_cast; rw [← hk, ← hl]; linarith [h1.2]
  have h3 : (-1 : ℚ) < ((l - k : ℤ) : ℚ) := by push_cast; rw [← hk, ← hl]; linarith [h1.1]
  have h4 : l - k < 1 := by exact_mod_cast h2
  have h5 : -1 < l - k := by exact_mod_cast h3
  have h6 : l = k := by omega
  rw [h6, ← hk] at hl
  linarith

theorem fixed_nospace (x : ℚ) : ' ' ∉ fixed x := by
  have hd : ∀ c, isDigit c = true → c ≠ ' ' := by
    rintro c hc rfl
    exact absurd hc (by decide)
  unfold fixed
  rw [List.mem_append, List.mem_append, List.mem_cons]
  rintro ((h | h) | h | h)
  · split_ifs at h <;> simp at h
  · exact hd _ (nat_isDigit _ _ h) rfl
  · exact absurd h (by decide)
  · exact hd _ (six_digits _ _ h) rfl

theorem line_ok (rd : ℚ → ℚ) (p : Vec 3 ℚ) : Load.Line (stod rd) ' ' (line p) fun d => rd (shown (p d)) := by
  refine ⟨[fixed (p 0), fixed (p 1), fixed (p 2)], rfl, ?_, by simp, ?_⟩
  · intro f hf
    simp only [List.mem_cons, List.not_mem_nil, or_false] at hf
    rcases hf with rfl | rfl | rfl <;> exact fixed_nospace _
  · intro d
    have : d = 0 ∨ d = 1 ∨ d = 2 := by omega
    rcases this with rfl | rfl | rfl <;> exact ⟨_, rfl, by simp [stod, decimal_fixed]⟩

theorem forall₂_dump (rd : ℚ → ℚ) (pts : List (Vec 3 ℚ)) :
    List.Forall₂ (Load.Line (stod rd) ' ') (dump pts) (pts.map fun p d => rd (shown (p d))) := by
  induction pts with
  | nil => exact .nil
  | cons p pts ih => exact .cons (line_ok rd p) ih

/-- **C119, partial.** Generated points (behind the entry 0 of the container) are dumped and loaded: each point is loaded
in its place with the number read nearest to it among the multiples of a millionth, so exactly if its coordinates are
such multiples. But the entry 0 has become the first point. -/
theorem C119_partial (rd : ℚ → ℚ) (top tiny : ℚ) (u : Vec 3 ℚ) (ps : List (Vec 3 ℚ)) (h0 : rd 0 = 0) :
    ∃ qs b, load rd top tiny u (dump ((fun _ => 0) :: ps)) = .done (some ((fun _ => 0) :: (fun _ => 0) :: qs, b)) ∧
      List.Forall₂ (fun p q : Vec 3 ℚ => ∀ d, ∃ r, q d = rd r ∧ |r - p d| ≤ 1 / 2 / 10 ^ 6 ∧
        ((∃ k : ℤ, p d * 10 ^ 6 = k) → r = p d)) ps qs := by
  obtain ⟨b, hb, -⟩ := Load.C87_partial (stod rd) top tiny ' ' u [fun _ => 0] _ _ (forall₂_dump rd ((fun _ => 0) :: ps))
  refine ⟨ps.map fun p d => rd (shown (p d)), b, ?_, ?_⟩
  · unfold load
    rw [hb, List.map_cons]
    have hz : shown 0 = 0 := shown_exact ⟨0, by norm_num⟩
    simp only [hz, h0, List.cons_append, List.nil_append]
  · rw [List.forall₂_map_right_iff, List.forall₂_same]
    exact fun p _ d => ⟨shown (p d), rfl, shown_near _, shown_exact⟩

/-- **C119 is violated.** Whatever points are dumped, there is one more point after loading, which is the origin. -/
theorem C119_violated (rd : ℚ → ℚ) (top tiny : ℚ) (u : Vec 3 ℚ) (ps : List (Vec 3 ℚ)) (h0 : rd 0 = 0) :
    ∃ qs b, load rd top tiny u (dump ((fun _ => 0) :: ps)) = .done (some (qs, b)) ∧ qs.length = ps.length + 2 ∧
      qs[1]? = some fun _ => 0 := by
  obtain ⟨qs, b, h1, h2⟩ := C119_partial rd top tiny u ps h0
  exact ⟨_, b, h1, by simp [h2.length_eq], rfl⟩

/-- **C119 is violated** also without the additional point: two different points of type `double`, at a distance of
2⁻²¹, become equal. -/
theorem C119_digits_violated : line ![1 / 2 ^ 21, 1, 1] = line ![0, 1, 1] ∧
    (![1 / 2 ^ 21, 1, 1] : Vec 3 ℚ) ≠ ![0, 1, 1] := by
  refine ⟨?_, fun h => ?_⟩
  · have h : fixed (1 / 2 ^ 21) = fixed 0 := by
      have h1 : micro (1 / 2 ^ 21) = micro 0 := by decide +kernel
      unfold fixed
      rw [h1]
      norm_num
    show fixed (1 / 2 ^ 21) ++ _ = fixed 0 ++ _
    rw [h]
    rfl
  · have := congrFun h 0
    norm_num at this

/-- The dump of the point (1/2, -3, 100) and the zero entry. -/
example : dump [fun _ => 0, ![1 / 2, -3, 100]] =
    ["0.000000 0.000000 0.000000".toList, "0.500000 -3.000000 100.000000".toList] := by
  have m0 : micro 0 = 0 := by decide +kernel
  have m1 : micro (1 / 2) = 500000 := by decide +kernel
  have m2 : micro (-3) = 3000000 := by decide +kernel
  have m3 : micro 100 = 100000000 := by decide +kernel
  have n0 : nat 0 = ['0'] := by decide +kernel
  have n3 : nat 3 = ['3'] := by decide +kernel
  have n100 : nat 100 = ['1', '0', '0'] := by decide +kernel
  simp only [dump, line, fixed, List.map_cons, List.map_nil, m0, n0, Matrix.cons_val_zero, Matrix.cons_val_one, Matrix.cons_val]
  simp only [m1, m2, m3]
  norm_num [n0, n3, n100]
  decide +kernel

end Dump
end Verif
