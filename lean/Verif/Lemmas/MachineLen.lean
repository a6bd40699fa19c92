import Verif.Model.Machine
import Mathlib.Tactic.NormNum
import Mathlib.Tactic.Linarith
import Mathlib.Tactic.SplitIfs

/-!
# Lengths of the expansions
-/
namespace Verif
namespace FPM
open FP (Consts Side Side3 emit pickE finish top)

/-- The call returns a value with the property `P`. -/
def Ok {α : Type} (P : α → Prop) (x : Res α) : Prop := ∃ v, x = .done v ∧ P v

theorem Ok.bind {α β : Type} {P : α → Prop} {Q : β → Prop} {x : Res α} {f : α → Res β} (h : Ok P x) (hf : ∀ v, P v → Ok Q (f v)) :
    Ok Q (x >>= f) := by
  obtain ⟨v, rfl, hv⟩ := h
  exact hf v hv

theorem Ok.pure {α : Type} {P : α → Prop} {v : α} (h : P v) : Ok P (pure v : Res α) := ⟨v, rfl, h⟩

theorem Ok.done {α : Type} {P : α → Prop} {v : α} (h : P v) : Ok P (Res.done v) := ⟨v, rfl, h⟩

theorem Ok.mono {α : Type} {P Q : α → Prop} {x : Res α} (h : Ok P x) (hPQ : ∀ v, P v → Q v) : Ok Q x := by
  obtain ⟨v, rfl, hv⟩ := h
  exact ⟨v, rfl, hPQ v hv⟩

/-- An expansion of at least one and at most `n` components. -/
def Len (n : Nat) (l : List ℚ) : Prop := l ≠ [] ∧ l.length ≤ n

theorem Len.mono {n m : Nat} {l : List ℚ} (h : Len n l) (hm : n ≤ m) : Len m l := ⟨h.1, h.2.trans hm⟩

theorem emit_length (x : ℚ) (l : List ℚ) : (emit x l).length ≤ l.length + 1 := by
  unfold emit; split_ifs <;> simp

theorem finish_length (r : List ℚ × ℚ) : (finish r).length ≤ r.1.length + 1 := by
  unfold finish; split_ifs <;> simp

theorem finish_ne (r : List ℚ × ℚ) : finish r ≠ [] := by
  unfold finish
  split_ifs with h
  · simp
  · push Not at h; exact h.2

theorem fesLoop_length (rd : ℚ → ℚ) (es fs : List ℚ) (Q : ℚ) : (fesLoop rd es fs Q).1.length ≤ es.length + fs.length := by
  fun_induction fesLoop rd es fs Q with
  | case1 => simp
  | case2 Q e es r t ih => have := emit_length r.2 t.1; simp only [List.length_cons, t, r] at *; omega
  | case3 Q f fs r t ih => have := emit_length r.2 t.1; simp only [List.length_cons, t, r] at *; omega
  | case4 Q e es f fs h r t ih => have := emit_length r.2 t.1; simp only [List.length_cons, t, r] at *; omega
  | case5 Q e es f fs h r t ih => have := emit_length r.2 t.1; simp only [List.length_cons, t, r] at *; omega

theorem fesRest_length (rd : ℚ → ℚ) (es fs : List ℚ) (Q : ℚ) : (fesRest rd es fs Q).1.length ≤ es.length + fs.length := by
  unfold fesRest
  split
  · rename_i e es f fs
    split_ifs
    · have h1 := fesLoop_length rd es (f :: fs) (fastTwoSum rd e Q).1
      have h2 := emit_length (fastTwoSum rd e Q).2 (fesLoop rd es (f :: fs) (fastTwoSum rd e Q).1).1
      simp only [List.length_cons] at *
      omega
    · have h1 := fesLoop_length rd (e :: es) fs (fastTwoSum rd f Q).1
      have h2 := emit_length (fastTwoSum rd f Q).2 (fesLoop rd (e :: es) fs (fastTwoSum rd f Q).1).1
      simp only [List.length_cons] at *
      omega
  · exact fesLoop_length rd _ _ Q

theorem fes_len {rd : ℚ → ℚ} {n m : Nat} {e f : List ℚ} (he : Len n e) (hf : Len m f) : Len (n + m) (fes rd e f) := by
  obtain ⟨h1, h2⟩ := he
  obtain ⟨h3, h4⟩ := hf
  cases e with
  | nil => simp at h1
  | cons e0 es =>
    cases f with
    | nil => simp at h3
    | cons f0 fs =>
      refine ⟨finish_ne _, ?_⟩
      simp only [fes]
      refine (finish_length _).trans ?_
      split_ifs
      · have := fesRest_length rd es (f0 :: fs) e0
        simp only [List.length_cons] at *
        omega
      · have := fesRest_length rd (e0 :: es) fs f0
        simp only [List.length_cons] at *
        omega

theorem scaleLoop_length (rd : ℚ → ℚ) (sp b : ℚ) (es : List ℚ) : ∀ Q, (scaleLoop rd sp b es Q).1.length ≤ 2 * es.length := by
  induction es with
  | nil => intro Q; simp [scaleLoop]
  | cons e es ih =>
    intro Q
    simp only [scaleLoop, List.length_cons]
    refine (emit_length _ _).trans ?_
    have h1 := ih (fastTwoSum rd (twoProduct rd sp e b).1 (twoSum rd Q (twoProduct rd sp e b).2).1).1
    have h2 := emit_length (fastTwoSum rd (twoProduct rd sp e b).1 (twoSum rd Q (twoProduct rd sp e b).2).1).2
      (scaleLoop rd sp b es (fastTwoSum rd (twoProduct rd sp e b).1 (twoSum rd Q (twoProduct rd sp e b).2).1).1).1
    omega

theorem scale_len {rd : ℚ → ℚ} {sp b : ℚ} {n : Nat} {e : List ℚ} (he : Len n e) : Len (2 * n) (scale rd sp e b) := by
  obtain ⟨h1, h2⟩ := he
  cases e with
  | nil => simp at h1
  | cons e0 es =>
    refine ⟨finish_ne _, ?_⟩
    simp only [scale]
    refine (finish_length _).trans ?_
    have h3 := scaleLoop_length rd sp b es (twoProduct rd sp e0 b).1
    have h4 := emit_length (twoProduct rd sp e0 b).2 (scaleLoop rd sp b es (twoProduct rd sp e0 b).1).1
    simp only [List.length_cons] at *
    omega

theorem fesTo_eq {rd : ℚ → ℚ} {n m k : Nat} {e f : List ℚ} (he : Len n e) (hf : Len m f) (hk : n + m ≤ k) :
    fesTo rd k e f = .done (fes rd e f) := by
  have h := fes_len (rd := rd) he hf
  simp [fesTo, he.1, hf.1, store, h.2.trans hk]

theorem scaleTo_eq {rd : ℚ → ℚ} {sp b : ℚ} {n k : Nat} {e : List ℚ} (he : Len n e) (hk : 2 * n ≤ k) :
    scaleTo rd sp k e b = .done (scale rd sp e b) := by
  have h := scale_len (rd := rd) (sp := sp) (b := b) he
  simp [scaleTo, he.1, store, h.2.trans hk]

theorem fesTo_ok {rd : ℚ → ℚ} {n m k : Nat} {e f : List ℚ} (he : Len n e) (hf : Len m f) (hk : n + m ≤ k) :
    Ok (Len (n + m)) (fesTo rd k e f) := by
  rw [fesTo_eq he hf hk]
  exact Ok.done (fes_len he hf)

theorem scaleTo_ok {rd : ℚ → ℚ} {sp b : ℚ} {n k : Nat} {e : List ℚ} (he : Len n e) (hk : 2 * n ≤ k) :
    Ok (Len (2 * n)) (scaleTo rd sp k e b) := by
  rw [scaleTo_eq he hk]
  exact Ok.done (scale_len he)

theorem len4 (a b c d : ℚ) : Len 4 [a, b, c, d] := ⟨by simp, by simp⟩

theorem diff4_len (rd : ℚ → ℚ) (sp a b c d : ℚ) : Len 4 (diff4 rd sp a b c d) := len4 _ _ _ _

theorem sum4_len (rd : ℚ → ℚ) (sp a b c d : ℚ) : Len 4 (sum4 rd sp a b c d) := len4 _ _ _ _

theorem squares4_len (rd : ℚ → ℚ) (sp a b : ℚ) : Len 4 (squares4 rd sp a b) := len4 _ _ _ _

theorem cross4_len (rd : ℚ → ℚ) (sp : ℚ) (b c : Side) : Len 4 (cross4 rd sp b c) := len4 _ _ _ _

theorem twoOneProduct_len (rd : ℚ → ℚ) (sp a b c : ℚ) : Len 4 (twoOneProduct rd sp a b c) := len4 _ _ _ _

theorem raw4_len (rd : ℚ → ℚ) (sp : ℚ) (a b : ℚ × ℚ × ℚ) : Len 4 (raw4 rd sp a b) := len4 _ _ _ _

theorem len1 (a : ℚ) {n : Nat} (h : 1 ≤ n) : Len n [a] := ⟨by simp, by simpa⟩

theorem tailL_len (rd : ℚ → ℚ) (sp : ℚ) (a b : Side3) : Len 4 (tailL rd sp a b) := by
  unfold tailL
  split_ifs
  · exact len1 _ (by norm_num)
  · exact ⟨by simp [pair2], by simp [pair2]⟩
  · exact ⟨by simp [pair2], by simp [pair2]⟩
  · exact diff4_len _ _ _ _ _ _

theorem tailR_len (rd : ℚ → ℚ) (sp : ℚ) (a b : Side3) : Len 4 (tailR rd sp a b) := by
  unfold tailR
  split_ifs
  · exact len1 _ (by norm_num)
  · exact ⟨by simp [pair2], by simp [pair2]⟩
  · exact ⟨by simp [pair2], by simp [pair2]⟩
  · exact diff4_len _ _ _ _ _ _

/-! ### Orientation test in the plane -/

theorem orientAdapt2_ok (rd : ℚ → ℚ) (c : Consts) (pa pb pc : ℚ × ℚ) (s : ℚ) : Ok (fun _ => True) (orientAdapt2 rd c pa pb pc s) := by
  unfold orientAdapt2
  simp only []
  split_ifs
  · exact Ok.done trivial
  · exact Ok.done trivial
  · exact Ok.done trivial
  · refine (fesTo_ok (diff4_len _ _ _ _ _ _) (diff4_len _ _ _ _ _ _) (by norm_num)).bind fun C1 h1 => ?_
    refine (fesTo_ok h1 (diff4_len _ _ _ _ _ _) (by norm_num)).bind fun C2 h2 => ?_
    refine (fesTo_ok h2 (diff4_len _ _ _ _ _ _) (by norm_num)).bind fun D h3 => ?_
    exact Ok.pure trivial

theorem orient2_ok (rd : ℚ → ℚ) (c : Consts) (pa pb pc : ℚ × ℚ) : Ok (fun _ => True) (orient2 rd c pa pb pc) := by
  unfold orient2
  simp only []
  split_ifs <;> first | exact Ok.done trivial | exact orientAdapt2_ok _ _ _ _ _ _

/-! ### Incircle test in the plane -/

theorem liftDet_ok {rd : ℚ → ℚ} {sp : ℚ} {a : Side} {bc : List ℚ} (h : Len 4 bc) : Ok (Len 32) (liftDet rd sp a bc) := by
  unfold liftDet
  refine (scaleTo_ok h (by norm_num)).bind fun _ h1 => ?_
  refine (scaleTo_ok h1 (by norm_num)).bind fun _ h2 => ?_
  refine (scaleTo_ok h (by norm_num)).bind fun _ h3 => ?_
  refine (scaleTo_ok h3 (by norm_num)).bind fun _ h4 => ?_
  exact fesTo_ok h2 h4 (by norm_num)

theorem lift4_len {rd : ℚ → ℚ} {sp : ℚ} {a b c : Side} (h : b.inexact = true ∨ c.inexact = true) : Len 4 (lift4 rd sp a b c) := by
  unfold lift4
  rw [if_pos (by simpa using h)]
  exact squares4_len _ _ _ _

theorem inexact_x {a : Side} (h : a.xt ≠ 0) : a.inexact = true := by simp [FP.Side.inexact, h]

theorem inexact_y {a : Side} (h : a.yt ≠ 0) : a.inexact = true := by simp [FP.Side.inexact, h]

section
variable {rd : ℚ → ℚ} {sp : ℚ} {a b c : Side} {bc bb cc fin bct bctt : List ℚ} {n : Nat}

theorem firstX_ok (h : Len 4 bc) (hb : a.inexact = true → Len 4 bb) (hc : a.inexact = true → Len 4 cc) (hf : Len n fin) (hn : n + 48 ≤ 1152) :
    Ok (Len (n + 48)) (firstX rd sp a b c bc bb cc fin) := by
  unfold firstX
  split_ifs with hx
  · refine (scaleTo_ok h (by norm_num)).bind fun _ h1 => ?_
    refine (scaleTo_ok h1 (by norm_num)).bind fun _ h2 => ?_
    refine (scaleTo_ok (hc (inexact_x hx)) (by norm_num)).bind fun _ h3 => ?_
    refine (scaleTo_ok h3 (by norm_num)).bind fun _ h4 => ?_
    refine (scaleTo_ok (hb (inexact_x hx)) (by norm_num)).bind fun _ h5 => ?_
    refine (scaleTo_ok h5 (by norm_num)).bind fun _ h6 => ?_
    refine (fesTo_ok h2 h4 (by norm_num)).bind fun _ h7 => ?_
    refine (fesTo_ok h6 h7 (by norm_num)).bind fun _ h8 => ?_
    exact fesTo_ok hf h8 (by omega)
  · exact Ok.done (hf.mono (by omega))

theorem firstY_ok (h : Len 4 bc) (hb : a.inexact = true → Len 4 bb) (hc : a.inexact = true → Len 4 cc) (hf : Len n fin) (hn : n + 48 ≤ 1152) :
    Ok (Len (n + 48)) (firstY rd sp a b c bc bb cc fin) := by
  unfold firstY
  split_ifs with hx
  · refine (scaleTo_ok h (by norm_num)).bind fun _ h1 => ?_
    refine (scaleTo_ok h1 (by norm_num)).bind fun _ h2 => ?_
    refine (scaleTo_ok (hb (inexact_y hx)) (by norm_num)).bind fun _ h3 => ?_
    refine (scaleTo_ok h3 (by norm_num)).bind fun _ h4 => ?_
    refine (scaleTo_ok (hc (inexact_y hx)) (by norm_num)).bind fun _ h5 => ?_
    refine (scaleTo_ok h5 (by norm_num)).bind fun _ h6 => ?_
    refine (fesTo_ok h2 h4 (by norm_num)).bind fun _ h7 => ?_
    refine (fesTo_ok h6 h7 (by norm_num)).bind fun _ h8 => ?_
    exact fesTo_ok hf h8 (by omega)
  · exact Ok.done (hf.mono (by omega))

theorem crossT_ok : Ok (Len 8) (crossT rd sp b c) := by
  unfold crossT
  split_ifs
  · exact fesTo_ok (sum4_len _ _ _ _ _ _) (sum4_len _ _ _ _ _ _) (by norm_num)
  · exact Ok.done (len1 _ (by norm_num))

theorem crossTT_len : Len 4 (crossTT rd sp b c) := by
  unfold crossTT
  split_ifs
  · exact diff4_len _ _ _ _ _ _
  · exact len1 _ (by norm_num)

theorem secondXY_ok {s t : ℚ} (hc : Len 4 cc) (hf : Len n fin) (hn : n + 16 ≤ 1152) : Ok (Len (n + 16)) (secondXY rd sp s t cc fin) := by
  unfold secondXY
  split_ifs
  · refine (scaleTo_ok hc (by norm_num)).bind fun _ h1 => ?_
    refine (scaleTo_ok h1 (by norm_num)).bind fun _ h2 => ?_
    exact fesTo_ok hf h2 (by omega)
  · exact Ok.done (hf.mono (by omega))

theorem secondPre_ok {x t : ℚ} (h : Len 4 bc) (ht : Len 8 bct) (hf : Len n fin) (hn : n + 48 ≤ 1152) :
    Ok (Len (n + 48)) (secondPre rd sp x t bc bct fin) := by
  unfold secondPre
  refine (scaleTo_ok h (by norm_num)).bind fun _ h1 => ?_
  refine (scaleTo_ok h1 (by norm_num)).bind fun _ h2 => ?_
  refine (scaleTo_ok ht (by norm_num)).bind fun _ h3 => ?_
  refine (scaleTo_ok h3 (by norm_num)).bind fun _ h4 => ?_
  refine (fesTo_ok h2 h4 (by norm_num)).bind fun _ h5 => ?_
  exact fesTo_ok hf h5 (by omega)

theorem secondPost_ok {x t : ℚ} (ht : Len 8 bct) (htt : Len 4 bctt) (hf : Len n fin) (hn : n + 64 ≤ 1152) :
    Ok (Len (n + 64)) (secondPost rd sp x t bct bctt fin) := by
  unfold secondPost
  refine (scaleTo_ok ht (by norm_num)).bind fun _ h1 => ?_
  refine (scaleTo_ok h1 (by norm_num)).bind fun _ h2 => ?_
  refine (scaleTo_ok htt (by norm_num)).bind fun _ h3 => ?_
  refine (scaleTo_ok h3 (by norm_num)).bind fun _ h4 => ?_
  refine (scaleTo_ok h3 (by norm_num)).bind fun _ h5 => ?_
  refine (fesTo_ok h4 h5 (by norm_num)).bind fun _ h6 => ?_
  refine (fesTo_ok h2 h6 (by norm_num)).bind fun _ h7 => ?_
  exact fesTo_ok hf h7 (by omega)

theorem secondX_ok (h : Len 4 bc) (hb : a.inexact = true → Len 4 bb) (hc : a.inexact = true → Len 4 cc) (ht : Len 8 bct) (htt : Len 4 bctt)
    (hf : Len n fin) (hn : n + 144 ≤ 1152) : Ok (Len (n + 144)) (secondX rd sp a b c bc bb cc bct bctt fin) := by
  unfold secondX
  split_ifs with hx
  · refine (secondPre_ok h ht hf (by omega)).bind fun _ h1 => ?_
    refine (secondXY_ok (hc (inexact_x hx)) h1 (by omega)).bind fun _ h2 => ?_
    refine (secondXY_ok (hb (inexact_x hx)) h2 (by omega)).bind fun _ h3 => ?_
    exact (secondPost_ok ht htt h3 (by omega)).mono fun _ h => h.mono (by omega)
  · exact Ok.done (hf.mono (by omega))

theorem secondY_ok (h : Len 4 bc) (ht : Len 8 bct) (htt : Len 4 bctt) (hf : Len n fin) (hn : n + 112 ≤ 1152) :
    Ok (Len (n + 112)) (secondY rd sp a bc bct bctt fin) := by
  unfold secondY
  split_ifs with hx
  · refine (secondPre_ok h ht hf (by omega)).bind fun _ h1 => ?_
    exact (secondPost_ok ht htt h1 (by omega)).mono fun _ h => h.mono (by omega)
  · exact Ok.done (hf.mono (by omega))

theorem second_ok (h : Len 4 bc) (hb : a.inexact = true → Len 4 bb) (hc : a.inexact = true → Len 4 cc) (hf : Len n fin) (hn : n + 256 ≤ 1152) :
    Ok (Len (n + 256)) (second rd sp a b c bc bb cc fin) := by
  unfold second
  split_ifs with hx
  · refine crossT_ok.bind fun _ h1 => ?_
    refine (secondX_ok h hb hc h1 crossTT_len hf (by omega)).bind fun _ h2 => ?_
    exact (secondY_ok h h1 crossTT_len h2 (by omega)).mono fun _ h => h.mono (by omega)
  · exact Ok.done (hf.mono (by omega))

end

theorem insphereLast2_ok {rd : ℚ → ℚ} {sp : ℚ} {a b c : Side} {bc ca ab fin : List ℚ} (h1 : Len 4 bc) (h2 : Len 4 ca) (h3 : Len 4 ab)
    (hf : Len 96 fin) : Ok (Len 1152) (insphereLast2 rd sp a b c bc ca ab fin) := by
  unfold insphereLast2
  refine (firstX_ok h1 (fun h => lift4_len (Or.inr h)) (fun h => lift4_len (Or.inl h)) hf (by norm_num)).bind fun _ f1 => ?_
  refine (firstY_ok h1 (fun h => lift4_len (Or.inr h)) (fun h => lift4_len (Or.inl h)) f1 (by norm_num)).bind fun _ f2 => ?_
  refine (firstX_ok h2 (fun h => lift4_len (Or.inr h)) (fun h => lift4_len (Or.inl h)) f2 (by norm_num)).bind fun _ f3 => ?_
  refine (firstY_ok h2 (fun h => lift4_len (Or.inr h)) (fun h => lift4_len (Or.inl h)) f3 (by norm_num)).bind fun _ f4 => ?_
  refine (firstX_ok h3 (fun h => lift4_len (Or.inr h)) (fun h => lift4_len (Or.inl h)) f4 (by norm_num)).bind fun _ f5 => ?_
  refine (firstY_ok h3 (fun h => lift4_len (Or.inr h)) (fun h => lift4_len (Or.inl h)) f5 (by norm_num)).bind fun _ f6 => ?_
  refine (second_ok h1 (fun h => lift4_len (Or.inr h)) (fun h => lift4_len (Or.inl h)) f6 (by norm_num)).bind fun _ f7 => ?_
  refine (second_ok h2 (fun h => lift4_len (Or.inr h)) (fun h => lift4_len (Or.inl h)) f7 (by norm_num)).bind fun _ f8 => ?_
  exact second_ok h3 (fun h => lift4_len (Or.inr h)) (fun h => lift4_len (Or.inl h)) f8 (by norm_num)

theorem insphereAdapt2_ok (rd : ℚ → ℚ) (k : Consts) (pa pb pc pd : ℚ × ℚ) (s : ℚ) :
    Ok (fun _ => True) (insphereAdapt2 rd k pa pb pc pd s) := by
  unfold insphereAdapt2
  refine (liftDet_ok (cross4_len _ _ _ _)).bind fun _ h1 => ?_
  refine (liftDet_ok (cross4_len _ _ _ _)).bind fun _ h2 => ?_
  refine (liftDet_ok (cross4_len _ _ _ _)).bind fun _ h3 => ?_
  refine (fesTo_ok h1 h2 (by norm_num)).bind fun _ h4 => ?_
  refine (fesTo_ok h4 h3 (by norm_num)).bind fun _ h5 => ?_
  simp only []
  split_ifs
  · exact Ok.pure trivial
  · exact Ok.pure trivial
  · exact Ok.pure trivial
  · refine (insphereLast2_ok (cross4_len _ _ _ _) (cross4_len _ _ _ _) (cross4_len _ _ _ _) h5).bind fun _ _ => ?_
    exact Ok.pure trivial

theorem insphere2_ok (rd : ℚ → ℚ) (k : Consts) (pa pb pc pd : ℚ × ℚ) : Ok (fun _ => True) (insphere2 rd k pa pb pc pd) := by
  unfold insphere2
  simp only []
  split_ifs
  · exact Ok.done trivial
  · exact insphereAdapt2_ok _ _ _ _ _ _ _

/-! ### Orientation test in space -/

section
variable {rd : ℚ → ℚ} {sp : ℚ} {fin e : List ℚ} {n m k : Nat}

theorem addScaled_ok {b : ℚ} (he : Len m e) (hk : 2 * m ≤ k) (hf : Len n fin) (hn : n + 2 * m ≤ 192) :
    Ok (Len (n + 2 * m)) (addScaled rd sp k e b fin) := by
  unfold addScaled
  split_ifs
  · exact (scaleTo_ok he hk).bind fun _ h1 => fesTo_ok hf h1 hn
  · exact Ok.done (hf.mono (by omega))

theorem addTails_ok {s t z zt : ℚ} (hf : Len n fin) (hn : n + 8 ≤ 192) : Ok (Len (n + 8)) (addTails rd sp s t z zt fin) := by
  unfold addTails
  split_ifs
  · refine (fesTo_ok hf (twoOneProduct_len _ _ _ _ _) (by omega)).bind fun _ h1 => ?_
    exact (fesTo_ok h1 (twoOneProduct_len _ _ _ _ _) (by omega)).mono fun _ h => h.mono (by omega)
  · refine (fesTo_ok hf (twoOneProduct_len _ _ _ _ _) (by omega)).bind fun _ h1 => ?_
    exact Ok.done (h1.mono (by omega))
  · exact Ok.done (hf.mono (by omega))

theorem tails3_ok {a b c : Side3} (hf : Len n fin) (hn : n + 16 ≤ 192) : Ok (Len (n + 16)) (tails3 rd sp a b c fin) := by
  unfold tails3
  split_ifs
  · exact (addTails_ok hf (by omega)).bind fun _ h1 => addTails_ok h1 (by omega)
  · exact Ok.done (hf.mono (by omega))

end

theorem orientLast3_ok {rd : ℚ → ℚ} {sp : ℚ} {a b c : Side3} {bc ca ab fin : List ℚ} (h1 : Len 4 bc) (h2 : Len 4 ca) (h3 : Len 4 ab)
    (hf : Len 24 fin) : Ok (Len 192) (orientLast3 rd sp a b c bc ca ab fin) := by
  unfold orientLast3
  refine (fesTo_ok (tailL_len _ _ _ _) (tailR_len _ _ _ _) (by norm_num)).bind fun _ t1 => ?_
  refine (scaleTo_ok t1 (by norm_num)).bind fun _ w1 => ?_
  refine (fesTo_ok hf w1 (by norm_num)).bind fun _ f1 => ?_
  refine (fesTo_ok (tailL_len _ _ _ _) (tailR_len _ _ _ _) (by norm_num)).bind fun _ t2 => ?_
  refine (scaleTo_ok t2 (by norm_num)).bind fun _ w2 => ?_
  refine (fesTo_ok f1 w2 (by norm_num)).bind fun _ f2 => ?_
  refine (fesTo_ok (tailL_len _ _ _ _) (tailR_len _ _ _ _) (by norm_num)).bind fun _ t3 => ?_
  refine (scaleTo_ok t3 (by norm_num)).bind fun _ w3 => ?_
  refine (fesTo_ok f2 w3 (by norm_num)).bind fun _ f3 => ?_
  refine (addScaled_ok h1 (by norm_num) f3 (by norm_num)).bind fun _ f4 => ?_
  refine (addScaled_ok h2 (by norm_num) f4 (by norm_num)).bind fun _ f5 => ?_
  refine (addScaled_ok h3 (by norm_num) f5 (by norm_num)).bind fun _ f6 => ?_
  refine (tails3_ok f6 (by norm_num)).bind fun _ f7 => ?_
  refine (tails3_ok f7 (by norm_num)).bind fun _ f8 => ?_
  refine (tails3_ok f8 (by norm_num)).bind fun _ f9 => ?_
  refine (addScaled_ok t1 (by norm_num) f9 (by norm_num)).bind fun _ f10 => ?_
  refine (addScaled_ok t2 (by norm_num) f10 (by norm_num)).bind fun _ f11 => ?_
  exact addScaled_ok t3 (by norm_num) f11 (by norm_num)

theorem orientAdapt3_ok (rd : ℚ → ℚ) (k : Consts) (pa pb pc pd : ℚ × ℚ × ℚ) (s : ℚ) :
    Ok (fun _ => True) (orientAdapt3 rd k pa pb pc pd s) := by
  unfold orientAdapt3
  refine (scaleTo_ok (cross4_len _ _ _ _) (by norm_num)).bind fun _ h1 => ?_
  refine (scaleTo_ok (cross4_len _ _ _ _) (by norm_num)).bind fun _ h2 => ?_
  refine (scaleTo_ok (cross4_len _ _ _ _) (by norm_num)).bind fun _ h3 => ?_
  refine (fesTo_ok h1 h2 (by norm_num)).bind fun _ h4 => ?_
  refine (fesTo_ok h4 h3 (by norm_num)).bind fun _ h5 => ?_
  simp only []
  split_ifs
  · exact Ok.pure trivial
  · exact Ok.pure trivial
  · exact Ok.pure trivial
  · refine (orientLast3_ok (cross4_len _ _ _ _) (cross4_len _ _ _ _) (cross4_len _ _ _ _) h5).bind fun _ _ => ?_
    exact Ok.pure trivial

theorem orient3_ok (rd : ℚ → ℚ) (k : Consts) (pa pb pc pd : ℚ × ℚ × ℚ) : Ok (fun _ => True) (orient3 rd k pa pb pc pd) := by
  unfold orient3
  simp only []
  split_ifs
  · exact Ok.done trivial
  · exact orientAdapt3_ok _ _ _ _ _ _ _

/-! ### Insphere test in space -/

section
variable {rd : ℚ → ℚ} {sp x y z : ℚ}

theorem sum24_ok {e f g : List ℚ} (he : Len 4 e) (hf : Len 4 f) (hg : Len 4 g) : Ok (Len 24) (sum24 rd sp e x f y g z) := by
  unfold sum24
  refine (scaleTo_ok he (by norm_num)).bind fun _ h1 => ?_
  refine (scaleTo_ok hf (by norm_num)).bind fun _ h2 => ?_
  refine (scaleTo_ok hg (by norm_num)).bind fun _ h3 => ?_
  refine (fesTo_ok h1 h2 (by norm_num)).bind fun _ h4 => ?_
  exact fesTo_ok h3 h4 (by norm_num)

theorem liftPos_ok {n n1 n2 n3 n4 : Nat} {t : List ℚ} (h : Len n t) (h1 : 2 * n ≤ n1) (h2 : 4 * n ≤ n2) (h3 : 8 * n ≤ n3) (h4 : 12 * n ≤ n4) :
    Ok (Len (12 * n)) (liftPos rd sp n1 n2 n3 n4 t x y z) := by
  unfold liftPos
  refine (scaleTo_ok h h1).bind fun _ g1 => ?_
  refine (scaleTo_ok g1 (by omega)).bind fun _ g2 => ?_
  refine (scaleTo_ok h h1).bind fun _ g3 => ?_
  refine (scaleTo_ok g3 (by omega)).bind fun _ g4 => ?_
  refine (scaleTo_ok h h1).bind fun _ g5 => ?_
  refine (scaleTo_ok g5 (by omega)).bind fun _ g6 => ?_
  refine (fesTo_ok g2 g4 (by omega)).bind fun _ g7 => ?_
  exact (fesTo_ok g7 g6 (by omega)).mono fun _ h => h.mono (by omega)

theorem liftNeg_ok {n n1 n2 n3 n4 : Nat} {t : List ℚ} (h : Len n t) (h1 : 2 * n ≤ n1) (h2 : 4 * n ≤ n2) (h3 : 8 * n ≤ n3) (h4 : 12 * n ≤ n4) :
    Ok (Len (12 * n)) (liftNeg rd sp n1 n2 n3 n4 t x y z) := by
  unfold liftNeg
  refine (scaleTo_ok h h1).bind fun _ g1 => ?_
  refine (scaleTo_ok g1 (by omega)).bind fun _ g2 => ?_
  refine (scaleTo_ok h h1).bind fun _ g3 => ?_
  refine (scaleTo_ok g3 (by omega)).bind fun _ g4 => ?_
  refine (scaleTo_ok h h1).bind fun _ g5 => ?_
  refine (scaleTo_ok g5 (by omega)).bind fun _ g6 => ?_
  refine (fesTo_ok g2 g4 (by omega)).bind fun _ g7 => ?_
  exact (fesTo_ok g7 g6 (by omega)).mono fun _ h => h.mono (by omega)

theorem comb96_ok {e f g h : List ℚ} (he : Len 24 e) (hf : Len 24 f) (hg : Len 24 g) (hh : Len 24 h) : Ok (Len 96) (comb96 rd e f g h) := by
  unfold comb96
  refine (fesTo_ok he hf (by norm_num)).bind fun _ h1 => ?_
  refine (fesTo_ok hg hh (by norm_num)).bind fun v h2 => ?_
  exact fesTo_ok h1 (m := 48) ⟨by simpa using h2.1, by simpa using h2.2⟩ (by norm_num)

end

theorem exact3_ok (rd : ℚ → ℚ) (sp : ℚ) (pa pb pc pd pe : ℚ × ℚ × ℚ) : Ok (Len 5760) (exact3 rd sp pa pb pc pd pe) := by
  unfold exact3
  refine (sum24_ok (raw4_len _ _ _ _) (raw4_len _ _ _ _) (raw4_len _ _ _ _)).bind fun _ abc => ?_
  refine (sum24_ok (raw4_len _ _ _ _) (raw4_len _ _ _ _) (raw4_len _ _ _ _)).bind fun _ bcd => ?_
  refine (sum24_ok (raw4_len _ _ _ _) (raw4_len _ _ _ _) (raw4_len _ _ _ _)).bind fun _ cde => ?_
  refine (sum24_ok (raw4_len _ _ _ _) (raw4_len _ _ _ _) (raw4_len _ _ _ _)).bind fun _ dea => ?_
  refine (sum24_ok (raw4_len _ _ _ _) (raw4_len _ _ _ _) (raw4_len _ _ _ _)).bind fun _ eab => ?_
  refine (sum24_ok (raw4_len _ _ _ _) (raw4_len _ _ _ _) (raw4_len _ _ _ _)).bind fun _ abd => ?_
  refine (sum24_ok (raw4_len _ _ _ _) (raw4_len _ _ _ _) (raw4_len _ _ _ _)).bind fun _ bce => ?_
  refine (sum24_ok (raw4_len _ _ _ _) (raw4_len _ _ _ _) (raw4_len _ _ _ _)).bind fun _ cda => ?_
  refine (sum24_ok (raw4_len _ _ _ _) (raw4_len _ _ _ _) (raw4_len _ _ _ _)).bind fun _ deb => ?_
  refine (sum24_ok (raw4_len _ _ _ _) (raw4_len _ _ _ _) (raw4_len _ _ _ _)).bind fun _ eac => ?_
  refine (comb96_ok cde bce deb bcd).bind fun _ bcde => ?_
  refine (liftPos_ok bcde (by norm_num) (by norm_num) (by norm_num) (by norm_num)).bind fun _ ad => ?_
  refine (comb96_ok dea cda eac cde).bind fun _ cdea => ?_
  refine (liftPos_ok cdea (by norm_num) (by norm_num) (by norm_num) (by norm_num)).bind fun _ bd => ?_
  refine (comb96_ok eab deb abd dea).bind fun _ deab => ?_
  refine (liftPos_ok deab (by norm_num) (by norm_num) (by norm_num) (by norm_num)).bind fun _ cd => ?_
  refine (comb96_ok abc eac bce eab).bind fun _ eabc => ?_
  refine (liftPos_ok eabc (by norm_num) (by norm_num) (by norm_num) (by norm_num)).bind fun _ dd => ?_
  refine (comb96_ok bcd abd cda abc).bind fun _ abcd => ?_
  refine (liftPos_ok abcd (by norm_num) (by norm_num) (by norm_num) (by norm_num)).bind fun _ ed => ?_
  refine (fesTo_ok ad bd (by norm_num)).bind fun _ h1 => ?_
  refine (fesTo_ok cd dd (by norm_num)).bind fun _ h2 => ?_
  refine (fesTo_ok h2 ed (by norm_num)).bind fun _ h3 => ?_
  exact (fesTo_ok h1 h3 (by norm_num)).mono fun _ h => h.mono (by norm_num)

theorem fin3_ok (rd : ℚ → ℚ) (sp : ℚ) (a b c d : Side3) : Ok (Len 1152) (fin3 rd sp a b c d) := by
  unfold fin3
  refine (sum24_ok (cross4_len _ _ _ _) (cross4_len _ _ _ _) (cross4_len _ _ _ _)).bind fun _ t1 => ?_
  refine (liftNeg_ok t1 (by norm_num) (by norm_num) (by norm_num) (by norm_num)).bind fun _ ad => ?_
  refine (sum24_ok (cross4_len _ _ _ _) (cross4_len _ _ _ _) (cross4_len _ _ _ _)).bind fun _ t2 => ?_
  refine (liftPos_ok t2 (by norm_num) (by norm_num) (by norm_num) (by norm_num)).bind fun _ bd => ?_
  refine (sum24_ok (cross4_len _ _ _ _) (cross4_len _ _ _ _) (cross4_len _ _ _ _)).bind fun _ t3 => ?_
  refine (liftNeg_ok t3 (by norm_num) (by norm_num) (by norm_num) (by norm_num)).bind fun _ cd => ?_
  refine (sum24_ok (cross4_len _ _ _ _) (cross4_len _ _ _ _) (cross4_len _ _ _ _)).bind fun _ t4 => ?_
  refine (liftPos_ok t4 (by norm_num) (by norm_num) (by norm_num) (by norm_num)).bind fun _ dd => ?_
  refine (fesTo_ok ad bd (by norm_num)).bind fun _ h1 => ?_
  refine (fesTo_ok cd dd (by norm_num)).bind fun _ h2 => ?_
  exact fesTo_ok h1 h2 (by norm_num)

theorem insphereAdapt3_ok (rd : ℚ → ℚ) (k : Consts) (pa pb pc pd pe : ℚ × ℚ × ℚ) (s : ℚ) :
    Ok (fun _ => True) (insphereAdapt3 rd k pa pb pc pd pe s) := by
  unfold insphereAdapt3
  refine (fin3_ok _ _ _ _ _ _).bind fun _ h1 => ?_
  simp only []
  split_ifs
  · exact Ok.pure trivial
  · exact Ok.pure trivial
  · exact Ok.pure trivial
  · exact (exact3_ok _ _ _ _ _ _ _).bind fun _ _ => Ok.pure trivial

theorem insphere3_ok (rd : ℚ → ℚ) (k : Consts) (pa pb pc pd pe : ℚ × ℚ × ℚ) : Ok (fun _ => True) (insphere3 rd k pa pb pc pd pe) := by
  unfold insphere3
  simp only []
  split_ifs
  · exact Ok.done trivial
  · exact insphereAdapt3_ok _ _ _ _ _ _ _ _

end FPM
end Verif
