import Verif.Lemmas.Range

/-!
# Expansions with bounded exponents
-/
namespace Verif
namespace FPM
open FP (Consts Side Side3 emit pickE finish top rnd Mul Rep)

variable {p : Nat} {rd : ℚ → ℚ} {q m : Int} {D S : Nat} {d e s t : Nat}

/-- A sum of `i` numbers with the bound `s`. -/
def A (q m : Int) (d s i : Nat) (x y : ℚ) : Prop := x = y ∧ Mul (d * q) y ∧ |y| ≤ i * 2 ^ (d * m + s : Int)

theorem A.of {x y : ℚ} (h : E q m d s x y) : A q m d s 1 x y := ⟨h.1, h.2.1, by simpa using h.2.2⟩

theorem A.toE {K i : Nat} {x y : ℚ} (h : A q m d s i x y) (hi : i ≤ 2 ^ K) : E q m d (s + K) x y := by
  refine ⟨h.1, h.2.1, h.2.2.trans ?_⟩
  have e1 : (d * m + (s + K : Nat) : Int) = (d * m + s) + (K : Nat) := by push_cast; ring
  rw [e1, zpow_add₀ (by norm_num) (d * m + s : Int) (K : Nat), mul_comm, zpow_natCast]
  have hi' : (i : ℚ) ≤ 2 ^ K := by exact_mod_cast hi
  exact mul_le_mul_of_nonneg_left hi' (FP.two_zpow_pos _).le

theorem A.step (H : Rng p rd q m D S) {K i : Nat} {x y x' y' : ℚ} (h : A q m d s i x x') (hy : E q m d s y y') (hi : i + 1 ≤ 2 ^ K) (hK : K ≤ 13)
    (hd : d ≤ D) (hs : s + K ≤ S) : A q m d s (i + 1) (rd (x + y)) (rnd p (x' + y')) := by
  obtain ⟨rfl, hm, hb⟩ := h
  obtain ⟨rfl, hy⟩ := hy
  have h1 : |x + y| ≤ ((i + 1 : Nat) : ℚ) * 2 ^ (d * m + s : Int) := by
    have := abs_add_le x y
    have := hy.2
    push_cast
    linarith
  have h2 : A q m d s (i + 1) (x + y) (x + y) := ⟨rfl, hm.add hy.1, h1⟩
  have hp := H.pos
  have h3 : Rep p (((i + 1 : Nat) : ℚ) * 2 ^ (d * m + s : Int)) := by
    refine Rep.of_le (k := d * m + s) ⟨(i + 1 : Nat), by push_cast; ring⟩ ?_ hp
    rw [abs_of_nonneg (by have := FP.two_zpow_pos (d * m + s); positivity), zpow_add₀ (by norm_num) (d * m + s : Int) p, mul_comm]
    refine mul_le_mul_of_nonneg_left ?_ (FP.two_zpow_pos _).le
    rw [zpow_natCast]
    have : i + 1 ≤ 2 ^ p := hi.trans (Nat.pow_le_pow_right (by norm_num) (hK.trans H.hp))
    exact_mod_cast this
  refine ⟨H.eq (h2.toE hi).2 hd (by omega), FP.rnd_mul h2.2.1, FP.abs_rnd_le hp h3 h1⟩

theorem EL.emit {x y : ℚ} {l l' : List ℚ} (h : E q m d s x y) (hl : EL q m d s l l') : EL q m d s (emit x l) (emit y l') := by
  unfold FP.emit
  rw [h.1]
  split_ifs
  · exact EL.cons ⟨rfl, h.2⟩ hl
  · exact hl

theorem EL.finish {x y : List ℚ × ℚ} (h : EL q m d s x.1 y.1) (hl : E q m d s x.2 y.2) : EL q m d s (finish x) (finish y) := by
  have : x = y := Prod.ext h.1 hl.1
  subst this
  refine ⟨rfl, ?_⟩
  unfold FP.finish
  split_ifs
  · intro z hz
    rcases List.mem_append.mp hz with hz | hz
    · exact h.2 z hz
    · rw [List.mem_singleton] at hz; rw [hz]; exact hl.2
  · exact h.2

theorem LB.hd {x : ℚ} {l : List ℚ} (h : LB q m d s (x :: l)) : E q m d s x x := E.of (h x (by simp))

theorem LB.tl {x : ℚ} {l : List ℚ} (h : LB q m d s (x :: l)) : LB q m d s l := fun y hy => h y (by simp [hy])

/-- One step of the loops. -/
theorem loop_step (H : Rng p rd q m D S) {K i : Nat} {Q Q' x : ℚ} (hQ : A q m d s i Q Q') (hx : E q m d s x x) (hi : i + 1 ≤ 2 ^ K) (hK : K ≤ 13)
    (hd : d ≤ D) (hs : s + K + 5 ≤ S) : A q m d s (i + 1) (twoSum rd Q x).1 (FP.twoSum p Q' x).1 ∧
    E q m d (s + K + 5) (twoSum rd Q x).2 (FP.twoSum p Q' x).2 :=
  ⟨hQ.step H hx hi hK hd (by omega), (twoSum_E H (hQ.toE (by omega)) (hx.le (by omega)) hd hs).2⟩

theorem fesLoop_E (H : Rng p rd q m D S) {K : Nat} (hK : K ≤ 13) (hd : d ≤ D) (hs : s + K + 5 ≤ S) (es fs : List ℚ) (Q' : ℚ) :
    ∀ (Q : ℚ) (i : Nat), LB q m d s es → LB q m d s fs → A q m d s i Q Q' → i + es.length + fs.length ≤ 2 ^ K →
    EL q m d (s + K + 5) (fesLoop rd es fs Q).1 (FP.fesLoop p es fs Q').1 ∧ E q m d (s + K + 5) (fesLoop rd es fs Q).2 (FP.fesLoop p es fs Q').2 := by
  fun_induction FP.fesLoop p es fs Q' with
  | case1 Q' =>
    intro Q i _ _ hQ hi
    simp only [fesLoop]
    exact ⟨EL.nil, (hQ.toE (K := K) (by simpa using hi)).le (by omega)⟩
  | case2 Q' e es r t ih =>
    intro Q i he hf hQ hi
    simp only [List.length_cons, List.length_nil] at hi ih
    obtain ⟨h1, h2⟩ := loop_step H hQ he.hd (by omega) hK hd hs
    obtain ⟨h3, h4⟩ := ih _ _ he.tl hf h1 (by omega)
    simp only [fesLoop]
    exact ⟨EL.emit h2 h3, h4⟩
  | case3 Q' f fs r t ih =>
    intro Q i he hf hQ hi
    simp only [List.length_cons, List.length_nil] at hi ih
    obtain ⟨h1, h2⟩ := loop_step H hQ hf.hd (by omega) hK hd hs
    obtain ⟨h3, h4⟩ := ih _ _ he hf.tl h1 (by omega)
    simp only [fesLoop]
    exact ⟨EL.emit h2 h3, h4⟩
  | case4 Q' e es f fs hpick r t ih =>
    intro Q i he hf hQ hi
    simp only [List.length_cons] at hi ih
    obtain ⟨h1, h2⟩ := loop_step H hQ he.hd (by omega) hK hd hs
    obtain ⟨h3, h4⟩ := ih _ _ he.tl hf h1 (by omega)
    rw [fesLoop, if_pos hpick]
    exact ⟨EL.emit h2 h3, h4⟩
  | case5 Q' e es f fs hpick r t ih =>
    intro Q i he hf hQ hi
    simp only [List.length_cons] at hi ih
    obtain ⟨h1, h2⟩ := loop_step H hQ hf.hd (by omega) hK hd hs
    obtain ⟨h3, h4⟩ := ih _ _ he hf.tl h1 (by omega)
    rw [fesLoop, if_neg hpick]
    exact ⟨EL.emit h2 h3, h4⟩

/-- The same for `Fast_Two_Sum`. -/
theorem fast_step (H : Rng p rd q m D S) {K i : Nat} {Q Q' x x' : ℚ} (hQ : A q m d s i Q Q') (hx : E q m d s x x') (hi : i + 1 ≤ 2 ^ K) (hK : K ≤ 13)
    (hd : d ≤ D) (hs : s + K + 5 ≤ S) : A q m d s (i + 1) (fastTwoSum rd x Q).1 (FP.fastTwoSum p x' Q').1 ∧
    E q m d (s + K + 5) (fastTwoSum rd x Q).2 (FP.fastTwoSum p x' Q').2 := by
  have h1 := hQ.step H hx hi hK hd (by omega)
  rw [add_comm Q, add_comm Q'] at h1
  exact ⟨h1, ((fastTwoSum_E H (hx.le (by omega)) (hQ.toE (K := K) (by omega)) hd (by omega)).2).le (by omega)⟩

theorem fesRest_E (H : Rng p rd q m D S) {K : Nat} (hK : K ≤ 13) (hd : d ≤ D) (hs : s + K + 5 ≤ S) {es fs : List ℚ} {Q' Q : ℚ} (he : LB q m d s es)
    (hf : LB q m d s fs) (hQ : E q m d s Q Q') (hi : 1 + es.length + fs.length ≤ 2 ^ K) :
    EL q m d (s + K + 5) (fesRest rd es fs Q).1 (FP.fesRest p es fs Q').1 ∧ E q m d (s + K + 5) (fesRest rd es fs Q).2 (FP.fesRest p es fs Q').2 := by
  cases es with
  | nil => simpa [fesRest, FP.fesRest] using fesLoop_E H hK hd hs _ _ _ _ 1 he hf (A.of hQ) hi
  | cons e es =>
    cases fs with
    | nil => simpa [fesRest, FP.fesRest] using fesLoop_E H hK hd hs _ _ _ _ 1 he hf (A.of hQ) hi
    | cons f fs =>
      simp only [List.length_cons] at hi
      simp only [fesRest, FP.fesRest]
      split_ifs
      · obtain ⟨h1, h2⟩ := fast_step H (A.of hQ) he.hd (by omega) hK hd hs
        obtain ⟨h3, h4⟩ := fesLoop_E H hK hd hs es (f :: fs) _ _ _ he.tl hf h1 (by simp only [List.length_cons]; omega)
        exact ⟨EL.emit h2 h3, h4⟩
      · obtain ⟨h1, h2⟩ := fast_step H (A.of hQ) hf.hd (by omega) hK hd hs
        obtain ⟨h3, h4⟩ := fesLoop_E H hK hd hs (e :: es) fs _ _ _ he hf.tl h1 (by simp only [List.length_cons]; omega)
        exact ⟨EL.emit h2 h3, h4⟩

theorem fes_E (H : Rng p rd q m D S) {K : Nat} (hK : K ≤ 13) (hd : d ≤ D) (hs : s + K + 5 ≤ S) {es fs : List ℚ} (he : LB q m d s es)
    (hf : LB q m d s fs) (hi : es.length + fs.length ≤ 2 ^ K) : EL q m d (s + K + 5) (fes rd es fs) (FP.fes p es fs) := by
  cases es with
  | nil => simpa [fes, FP.fes] using EL.nil
  | cons e es =>
    cases fs with
    | nil => simpa [fes, FP.fes] using EL.nil
    | cons f fs =>
      simp only [List.length_cons] at hi
      simp only [fes, FP.fes]
      split_ifs
      · obtain ⟨h1, h2⟩ := fesRest_E H hK hd hs he.tl hf he.hd (by simp only [List.length_cons]; omega)
        exact EL.finish h1 h2
      · obtain ⟨h1, h2⟩ := fesRest_E H hK hd hs he hf.tl hf.hd (by simp only [List.length_cons]; omega)
        exact EL.finish h1 h2

theorem scaleLoop_E (H : Rng p rd q m D S) {K : Nat} (hK : K ≤ 13) (hd : d + e ≤ D) (hs : s + t + K + 11 ≤ S) {b b' : ℚ} (hb : E q m e t b b') (es : List ℚ) :
    ∀ (Q Q' : ℚ) (i : Nat), LB q m d s es → A q m (d + e) (s + t + 6) i Q Q' → i + 2 * es.length ≤ 2 ^ K →
    EL q m (d + e) (s + t + K + 11) (scaleLoop rd (sp p) b es Q).1 (FP.scaleLoop p (sp p) b' es Q').1 ∧
    E q m (d + e) (s + t + K + 11) (scaleLoop rd (sp p) b es Q).2 (FP.scaleLoop p (sp p) b' es Q').2 := by
  induction es with
  | nil =>
    intro Q Q' i _ hQ hi
    simp only [scaleLoop, FP.scaleLoop]
    exact ⟨EL.nil, (hQ.toE (K := K) (by simpa using hi)).le (by omega)⟩
  | cons x es ih =>
    intro Q Q' i he hQ hi
    simp only [List.length_cons] at hi
    obtain ⟨h1, h2⟩ := twoProduct_E H he.hd hb hd (by omega)
    have s1 := hQ.step H h2 (K := K) (by omega) hK hd (by omega)
    have s2 := (twoSum_E H (hQ.toE (K := K) (by omega)) (h2.le (by omega)) hd (by omega)).2
    obtain ⟨f1, f2⟩ := fast_step H s1 (h1.le (by omega)) (K := K) (by omega) hK hd (by omega)
    obtain ⟨h3, h4⟩ := ih _ _ _ he.tl f1 (by omega)
    simp only [scaleLoop, FP.scaleLoop]
    exact ⟨EL.emit (s2.le (by omega)) (EL.emit (f2.le (by omega)) h3), h4⟩

theorem scale_E (H : Rng p rd q m D S) {K : Nat} (hK : K ≤ 13) (hd : d + e ≤ D) (hs : s + t + K + 11 ≤ S) {b b' : ℚ} (hb : E q m e t b b') {es : List ℚ}
    (he : LB q m d s es) (hi : 2 * es.length ≤ 2 ^ K) :
    EL q m (d + e) (s + t + K + 11) (scale rd (sp p) es b) (FP.scale p (sp p) es b') := by
  cases es with
  | nil => simpa [scale, FP.scale] using EL.nil
  | cons x es =>
    simp only [List.length_cons] at hi
    obtain ⟨h1, h2⟩ := twoProduct_E H he.hd hb hd (by omega)
    obtain ⟨h3, h4⟩ := scaleLoop_E H hK hd hs hb es _ _ _ he.tl (A.of (h1.le (t := s + t + 6) (by omega))) (by omega)
    simp only [scale, FP.scale]
    exact EL.finish (EL.emit (h2.le (by omega)) h3) h4

theorem estimate_E (H : Rng p rd q m D S) {K : Nat} (hK : K ≤ 13) (hd : d ≤ D) (hs : s + K ≤ S) {l : List ℚ} (hl : LB q m d s l) (hi : l.length ≤ 2 ^ K) :
    E q m d (s + K) (estimate rd l) (FP.estimate p l) := by
  cases l with
  | nil => exact ⟨rfl, B.zero⟩
  | cons x es =>
    have key : ∀ (es : List ℚ) (Q Q' : ℚ) (i : Nat), LB q m d s es → A q m d s i Q Q' → i + es.length ≤ 2 ^ K →
        E q m d (s + K) (es.foldl (fun Q y => rd (Q + y)) Q) (es.foldl (fun Q y => rnd p (Q + y)) Q') := by
      intro es
      induction es with
      | nil => intro Q Q' i _ hQ hi; exact hQ.toE (by simpa using hi)
      | cons y es ih =>
        intro Q Q' i hl hQ hi
        simp only [List.length_cons] at hi
        simp only [List.foldl_cons]
        exact ih _ _ _ hl.tl (hQ.step H hl.hd (by omega) hK hd hs) (by omega)
    simp only [List.length_cons] at hi
    exact key es x x 1 hl.tl (A.of hl.hd) (by omega)

theorem top_E {l l' : List ℚ} (h : EL q m d s l l') : E q m d s (top l) (top l') := by
  rw [h.1]
  refine E.of ?_
  unfold FP.top
  rw [List.getLastD_eq_getLast?]
  cases hl : l'.getLast? with
  | none => exact B.zero
  | some x => exact h.2 x (List.mem_of_getLast? hl)

/-! ### Expansions in arrays -/

/-- An expansion of at least one and at most `n` components. -/
def X (q m : Int) (d s n : Nat) (l l' : List ℚ) : Prop := EL q m d s l l' ∧ Len n l'

theorem X.mono {n k : Nat} {l l' : List ℚ} (h : X q m d s n l l') (hs : s ≤ t) (hn : n ≤ k) : X q m d t k l l' := ⟨h.1.le hs, h.2.mono hn⟩

theorem fesTo_X (H : Rng p rd q m D S) (K : Nat) {n l k : Nat} {a a' b b' : List ℚ} (ha : X q m d s n a a') (hb : X q m d t l b b') (hk : n + l ≤ k)
    (hi : n + l ≤ 2 ^ K) (hK : K ≤ 13) (hd : d ≤ D) (hs : max s t + K + 5 ≤ S) :
    Ok (fun v => X q m d (max s t + K + 5) (n + l) v (FP.fes p a' b')) (fesTo rd k a b) := by
  obtain ⟨⟨rfl, ha⟩, la⟩ := ha
  obtain ⟨⟨rfl, hb⟩, lb⟩ := hb
  rw [fesTo_eq la lb hk]
  have h := fes_E H hK hd hs (fun x hx => (ha x hx).le (le_max_left s t)) (fun x hx => (hb x hx).le (le_max_right s t))
    ((Nat.add_le_add la.2 lb.2).trans hi)
  refine Ok.done ⟨h, ?_⟩
  rw [← h.1]
  exact fes_len la lb

theorem scaleTo_X (H : Rng p rd q m D S) (K : Nat) {n k : Nat} {a a' : List ℚ} {b b' : ℚ} (ha : X q m d s n a a') (hb : E q m e t b b') (hk : 2 * n ≤ k)
    (hi : 2 * n ≤ 2 ^ K) (hK : K ≤ 13) (hd : d + e ≤ D) (hs : s + t + K + 11 ≤ S) :
    Ok (fun v => X q m (d + e) (s + t + K + 11) (2 * n) v (FP.scale p (sp p) a' b')) (scaleTo rd (sp p) k a b) := by
  obtain ⟨⟨rfl, ha⟩, la⟩ := ha
  rw [scaleTo_eq la hk]
  have h := scale_E H hK hd hs hb ha (by have := la.2; omega)
  refine Ok.done ⟨h, ?_⟩
  rw [← h.1]
  exact scale_len la

theorem estimate_X (H : Rng p rd q m D S) (K : Nat) {n : Nat} {a a' : List ℚ} (ha : X q m d s n a a') (hi : n ≤ 2 ^ K) (hK : K ≤ 13) (hd : d ≤ D)
    (hs : s + K ≤ S) : E q m d (s + K) (estimate rd a) (FP.estimate p a') := by
  obtain ⟨⟨rfl, ha⟩, la⟩ := ha
  exact estimate_E H hK hd hs ha (la.2.trans hi)

end FPM
end Verif
