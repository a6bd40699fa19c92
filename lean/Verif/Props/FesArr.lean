import Verif.Model.FesArr
import Verif.Props.Orient2

/-!
# Sums of expansions read beyond the end of arrays (C92)
-/
namespace Verif
namespace FP

private theorem fesLoopA_done {p : Nat} (n m : Nat) (enow fnow : ℚ) (es fs : List ℚ) (Q : ℚ) : n ≤ es.length → m ≤ fs.length →
    fesLoopA p n m enow fnow es fs Q = .done (fesLoop p ((enow :: es).take n) ((fnow :: fs).take m) Q) := by
  induction n, m, enow, fnow, es, fs, Q using fesLoopA.induct p with
  | case1 => intro _ _; simp [fesLoopA, fesLoop]
  | case2 n enow fnow fs Q r x es ih =>
    intro h1 h2
    simp only [List.length_cons] at h1
    simp only [fesLoopA, List.take_succ_cons, List.take_zero, fesLoop]
    rw [ih (by omega) (by omega)]
    simp [r]
  | case3 => intro h; simp at h
  | case4 m enow fnow es Q r x fs ih =>
    intro h1 h2
    simp only [List.length_cons] at h2
    simp only [fesLoopA, List.take_succ_cons, List.take_zero, fesLoop]
    rw [ih (by omega) (by omega)]
    simp [r]
  | case5 => intro _ h; simp at h
  | case6 n m enow fnow fs Q hp r x es ih =>
    intro h1 h2
    simp only [List.length_cons] at h1
    simp only [fesLoopA, List.take_succ_cons, fesLoop, hp, if_true]
    rw [ih (by omega) (by omega)]
    simp [r]
  | case7 => intro h; simp at h
  | case8 n m enow fnow es Q hp r x fs ih =>
    intro h1 h2
    simp only [List.length_cons] at h2
    simp only [fesLoopA, List.take_succ_cons, fesLoop, hp]
    rw [ih (by omega) (by omega)]
    simp [r]
  | case9 => intro _ h; simp at h

private theorem fesLoopA_ub {p : Nat} (n m : Nat) (enow fnow : ℚ) (es fs : List ℚ) (Q : ℚ) : n ≤ es.length + 1 → m ≤ fs.length + 1 →
    (n = es.length + 1 ∨ m = fs.length + 1) → fesLoopA p n m enow fnow es fs Q = .ub := by
  induction n, m, enow, fnow, es, fs, Q using fesLoopA.induct p with
  | case1 => intro _ _ h; simp at h
  | case2 n enow fnow fs Q r x es ih =>
    intro h1 h2 h3
    simp only [List.length_cons] at h1 h3
    simp only [fesLoopA]
    rw [ih (by omega) (by omega) (by omega)]
    rfl
  | case3 => intro _ _ _; simp only [fesLoopA]
  | case4 m enow fnow es Q r x fs ih =>
    intro h1 h2 h3
    simp only [List.length_cons] at h2 h3
    simp only [fesLoopA]
    rw [ih (by omega) (by omega) (by omega)]
    rfl
  | case5 => intro _ _ _; simp only [fesLoopA]
  | case6 n m enow fnow fs Q hp r x es ih =>
    intro h1 h2 h3
    simp only [List.length_cons] at h1 h3
    simp only [fesLoopA, hp, if_true]
    rw [ih (by omega) (by omega) (by omega)]
    rfl
  | case7 n m enow fnow fs Q hp => intro _ _ _; simp only [fesLoopA, hp, if_true]
  | case8 n m enow fnow es Q hp r x fs ih =>
    intro h1 h2 h3
    simp only [List.length_cons] at h2 h3
    simp only [fesLoopA, hp]
    rw [ih (by omega) (by omega) (by omega)]
    rfl
  | case9 n m enow fnow fs Q hp => intro _ _ _; simp [fesLoopA, hp]

private theorem fesRestA_done {p : Nat} {n m : Nat} {enow fnow : ℚ} {es fs : List ℚ} {Q : ℚ} (h1 : n ≤ es.length) (h2 : m ≤ fs.length) :
    fesRestA p n m enow fnow es fs Q = .done (fesRest p ((enow :: es).take n) ((fnow :: fs).take m) Q) := by
  unfold fesRestA
  rcases n with _ | n
  · simp [fesRest, fesLoopA_done _ _ _ _ _ _ _ h1 h2]
  rcases m with _ | m
  · simp [fesRest, fesLoopA_done _ _ _ _ _ _ _ h1 h2]
  rw [if_pos ⟨by omega, by omega⟩]
  simp only [List.take_succ_cons, fesRest]
  split_ifs with hp
  · rcases es with _ | ⟨x, es⟩
    · simp at h1
    · simp only [List.length_cons] at h1
      simp only [Nat.add_sub_cancel]
      rw [fesLoopA_done _ _ _ _ _ _ _ (by omega) h2]
      simp
  · rcases fs with _ | ⟨x, fs⟩
    · simp at h2
    · simp only [List.length_cons] at h2
      simp only [Nat.add_sub_cancel]
      rw [fesLoopA_done _ _ _ _ _ _ _ h1 (by omega)]
      simp

private theorem fesRestA_ub {p : Nat} {n m : Nat} {enow fnow : ℚ} {es fs : List ℚ} {Q : ℚ} (h1 : n ≤ es.length + 1) (h2 : m ≤ fs.length + 1)
    (h3 : n = es.length + 1 ∨ m = fs.length + 1) : fesRestA p n m enow fnow es fs Q = .ub := by
  unfold fesRestA
  split_ifs with h hp
  · rcases es with _ | ⟨x, es⟩
    · rfl
    · simp only [List.length_cons] at h1 h3
      dsimp only
      rw [fesLoopA_ub _ _ _ _ _ _ _ (by omega) h2 (by omega)]
      rfl
  · rcases fs with _ | ⟨x, fs⟩
    · rfl
    · simp only [List.length_cons] at h2 h3
      dsimp only
      rw [fesLoopA_ub _ _ _ _ _ _ _ h1 (by omega) (by omega)]
      rfl
  · exact fesLoopA_ub _ _ _ _ _ _ _ h1 h2 h3

/-- If both arrays have a component after the expansion, the function is the one on lists. -/
theorem C92_array {p : Nat} {e f : List ℚ} {elen flen : Nat} (h1 : 0 < elen) (h2 : 0 < flen) (he : elen < e.length) (hf : flen < f.length) :
    fesA p elen e flen f = .done (fes p (e.take elen) (f.take flen)) := by
  obtain ⟨n, rfl⟩ : ∃ n, elen = n + 1 := ⟨elen - 1, by omega⟩
  obtain ⟨m, rfl⟩ : ∃ m, flen = m + 1 := ⟨flen - 1, by omega⟩
  rcases e with _ | ⟨enow, es⟩
  · simp at he
  rcases f with _ | ⟨fnow, fs⟩
  · simp at hf
  simp only [List.length_cons] at he hf
  simp only [fesA, List.take_succ_cons, fes, Nat.add_sub_cancel]
  split_ifs with hp
  · rcases es with _ | ⟨x, es⟩
    · simp at he
    · simp only [List.length_cons] at he
      dsimp only
      rw [fesRestA_done (by omega) (by omega)]
      simp
  · rcases fs with _ | ⟨x, fs⟩
    · simp at hf
    · simp only [List.length_cons] at hf
      dsimp only
      rw [fesRestA_done (by omega) (by omega)]
      simp

example : fesA 53 2 [1, 2 ^ 53 + 4, 7] 1 [-(2 ^ 53 + 10), 9] = .done (fes 53 [1, 2 ^ 53 + 4] [-(2 ^ 53 + 10)]) :=
  C92_array (by norm_num) (by norm_num) (by norm_num) (by norm_num)

/-- If one of the expansions fills its array, the function reads beyond the end of an array. -/
theorem C92_full_violated {p : Nat} {e f : List ℚ} {elen flen : Nat} (h1 : 0 < elen) (h2 : 0 < flen) (he : elen ≤ e.length)
    (hf : flen ≤ f.length) (h : elen = e.length ∨ flen = f.length) : fesA p elen e flen f = .ub := by
  rcases e with _ | ⟨enow, es⟩
  · simp at he; omega
  rcases f with _ | ⟨fnow, fs⟩
  · simp at hf; omega
  simp only [List.length_cons] at he hf h
  simp only [fesA]
  split_ifs with hp
  · rcases es with _ | ⟨x, es⟩
    · rfl
    · simp only [List.length_cons] at he h
      dsimp only
      rw [fesRestA_ub (by omega) (by omega) (by omega)]
      rfl
  · rcases fs with _ | ⟨x, fs⟩
    · rfl
    · simp only [List.length_cons] at hf h
      dsimp only
      rw [fesRestA_ub (by omega) (by omega) (by omega)]
      rfl

example : fesA 53 1 [1] 1 [3, 4] = .ub := C92_full_violated (by norm_num) (by norm_num) (by norm_num) (by norm_num) (.inl rfl)

private theorem diff4_length (p : Nat) (s a b c d : ℚ) : (diff4 p s a b c d).length = 4 := rfl

/-- The orientation test in the plane returns the value of the model on lists, or reads beyond the end of its arrays. -/
theorem C92_orient2d_partial (p : Nat) (c : Consts) (pa pb pc : ℚ × ℚ) :
    orient2A p c pa pb pc = .done (orient2 p c pa pb pc) ∨ orient2A p c pa pb pc = .ub := by
  have key : ∀ sg, orientAdapt2A p c pa pb pc sg = .done (orientAdapt2 p c pa pb pc sg) ∨ orientAdapt2A p c pa pb pc sg = .ub := by
    intro sg
    unfold orientAdapt2A orientAdapt2
    dsimp only
    rw [C92_full_violated (by norm_num) (by norm_num) (diff4_length ..).ge (diff4_length ..).ge (.inl (diff4_length ..).symm)]
    split_ifs <;> simp
  unfold orient2A orient2
  dsimp only
  split_ifs <;> first | exact .inl rfl | exact key _

/-- The latter happens, for example for three points on a line whose differences are rounded. -/
theorem C92_orient2d_violated : ∃ c : Consts, Returns (init 53) c ∧ ∃ pa pb pc : ℚ × ℚ, IsPoint2 53 pa ∧ IsPoint2 53 pb ∧ IsPoint2 53 pc ∧
    orient2A 53 c pa pb pc = .ub := by
  obtain ⟨c, h, hc⟩ := consts_ok (p := 53) (by norm_num)
  refine ⟨c, h, (1, 1), (2, 2), (-1 / 2 ^ 60, -1 / 2 ^ 60), ⟨⟨1, 0, by norm_num, by norm_num⟩, ⟨1, 0, by norm_num, by norm_num⟩⟩,
    ⟨⟨2, 0, by norm_num, by norm_num⟩, ⟨2, 0, by norm_num, by norm_num⟩⟩,
    ⟨⟨-1, -60, by norm_num, by norm_num [zpow_neg]⟩, ⟨-1, -60, by norm_num, by norm_num [zpow_neg]⟩⟩, ?_⟩
  have e : ∀ c' : Consts, c'.splitter = c.splitter → c'.resulterrbound = c.resulterrbound → c'.ccwerrboundA = c.ccwerrboundA →
      c'.ccwerrboundB = c.ccwerrboundB → c'.ccwerrboundC = c.ccwerrboundC → ∀ pa pb pc, orient2A 53 c pa pb pc = orient2A 53 c' pa pb pc := by
    intro c' h1 h2 h3 h4 h5 pa pb pc
    simp only [orient2A, orientAdapt2A, h1, h2, h3, h4, h5]
  rw [e ⟨0, 2 ^ 27 + 1, (3 + 8 * eps 53) * eps 53, (3 + 16 * eps 53) * eps 53, (2 + 12 * eps 53) * eps 53, (9 + 64 * eps 53) * eps 53 ^ 2,
    0, 0, 0, 0, 0, 0, 0, 0, 0⟩ hc.splitter.symm hc.r.symm hc.ccwA.symm hc.ccwB.symm hc.ccwC.symm]
  decide +kernel

end FP
end Verif
