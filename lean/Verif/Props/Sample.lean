import Verif.Model.Sample
import Verif.Props.LBRun

/-!
# C66, C67, C83: distances to boxes, centres of parts, parts of samples
-/
namespace Verif
namespace Vecs
variable {D : Nat} {K : Type} [Field K] [LinearOrder K]

theorem lenSq_eq (v : Vec D K) : lenSq v = ∑ d, v d * v d := Chk.dot_eq v v

theorem sub_apply (v w : Vec D K) (d : Fin D) : Vecs.sub v w d = v d - w d := by
  simp only [Vecs.sub, add, scale]; ring

theorem minLoop_spec {α : Type} (key : α → K) : ∀ (l pre : List α) (best : Nat) (b : α), pre[best]? = some b →
    (∀ (j : Nat) c, pre[j]? = some c → key b ≤ key c) → (∀ (j : Nat) c, j < best → pre[j]? = some c → key b < key c) →
    ∃ c, (pre ++ l)[minLoop (fun x y => decide (key x < key y)) pre.length best b l]? = some c ∧
      (∀ (j : Nat) d, (pre ++ l)[j]? = some d → key c ≤ key d) ∧
      ∀ (j : Nat) d, j < minLoop (fun x y => decide (key x < key y)) pre.length best b l → (pre ++ l)[j]? = some d → key c < key d
  | [], pre, best, b, h1, h2, h3 => ⟨b, by simpa [minLoop] using h1, by simpa using h2, by simpa [minLoop] using h3⟩
  | a :: l, pre, best, b, h1, h2, h3 => by
    have e : pre ++ a :: l = (pre ++ [a]) ++ l := by simp
    have el : pre.length + 1 = (pre ++ [a]).length := by simp
    have hbl := (List.getElem?_eq_some_iff.mp h1).1
    have hpre : ∀ (j : Nat) (c : α), (pre ++ [a])[j]? = some c → pre[j]? = some c ∨ (j = pre.length ∧ c = a) := by
      intro j c hj
      rcases lt_or_ge j pre.length with hl | hl
      · rw [List.getElem?_append_left hl] at hj; exact Or.inl hj
      · rw [List.getElem?_append_right hl] at hj
        obtain ⟨h4, h5⟩ := List.getElem?_eq_some_iff.mp hj
        simp only [List.length_singleton] at h4
        refine Or.inr ⟨by omega, ?_⟩
        simpa using h5.symm
    by_cases hlt : key a < key b
    · rw [minLoop, if_pos (by simpa using hlt), e, el]
      refine minLoop_spec key l (pre ++ [a]) pre.length a (by simp) ?_ ?_
      · intro j c hj
        rcases hpre j c hj with h | ⟨_, rfl⟩
        · exact hlt.le.trans (h2 j c h)
        · exact le_rfl
      · intro j c hjl hj
        rcases hpre j c hj with h | ⟨h, _⟩
        · exact lt_of_lt_of_le hlt (h2 j c h)
        · omega
    · rw [minLoop, if_neg (by simpa using hlt), e, el]
      refine minLoop_spec key l (pre ++ [a]) best b (by rw [List.getElem?_append_left hbl]; exact h1) ?_ ?_
      · intro j c hj
        rcases hpre j c hj with h | ⟨_, rfl⟩
        · exact h2 j c h
        · exact not_lt.mp hlt
      · intro j c hjl hj
        rcases hpre j c hj with h | ⟨h, _⟩
        · exact h3 j c hjl h
        · omega

/-- The result is the position of the first smallest element. -/
theorem minElement_spec {α : Type} (key : α → K) {l : List α} (hl : l ≠ []) :
    ∃ c, l[minElement (fun x y => decide (key x < key y)) l]? = some c ∧ (∀ (j : Nat) d, l[j]? = some d → key c ≤ key d) ∧
      ∀ (j : Nat) d, j < minElement (fun x y => decide (key x < key y)) l → l[j]? = some d → key c < key d := by
  cases l with
  | nil => exact absurd rfl hl
  | cons a l =>
    rw [minElement]
    refine minLoop_spec key l [a] 0 a rfl ?_ ?_
    · intro j c hj
      obtain ⟨h4, h5⟩ := List.getElem?_eq_some_iff.mp hj
      simp only [List.length_singleton] at h4
      have : j = 0 := by omega
      subst this
      simp at h5
      rw [h5]
    · intro j c hj; omega

end Vecs

namespace Box
open Vecs
variable {D : Nat} {K : Type} [Field K] [LinearOrder K] [IsStrictOrderedRing K]

theorem vecToBox_eq (v : Vec D K) (b : Box D K) (d : Fin D) :
    vecToBox v b d = max (max (b.low d - v d) (v d - b.high d)) 0 := by
  simp only [vecToBox, vecToCenteredBox, vecToLowerQuadrant, Vecs.sub_apply, center, scale, add]
  congr 1
  rcases abs_cases (v d - (b.high d + b.low d) * (1 / 2)) with ⟨h1, h2⟩ | ⟨h1, h2⟩
  · rw [h1, max_eq_right (by linarith)]; ring
  · rw [h1, max_eq_left (by linarith)]; ring

/-- The point of the box next to `v`. -/
def clamp (v : Vec D K) (b : Box D K) : Vec D K := fun d => min (max (v d) (b.low d)) (b.high d)

theorem clamp_mem (v : Vec D K) {b : Box D K} (hb : ∀ d, b.low d ≤ b.high d) : b.containsPoint (clamp v b) = true := by
  rw [C35_contains_point]
  exact fun d => ⟨le_min (le_max_right _ _) (hb d), min_le_right _ _⟩

theorem clamp_dist (v : Vec D K) {b : Box D K} (hb : ∀ d, b.low d ≤ b.high d) (d : Fin D) :
    (v d - clamp v b d) * (v d - clamp v b d) = vecToBox v b d * vecToBox v b d := by
  rw [vecToBox_eq, clamp]
  have := hb d
  rcases lt_or_ge (v d) (b.low d) with h | h
  · rw [max_eq_right h.le, min_eq_left this, max_eq_left (a := b.low d - v d) (by linarith), max_eq_left (by linarith)]
    ring
  · rw [max_eq_left h]
    rcases lt_or_ge (b.high d) (v d) with h' | h'
    · rw [min_eq_right h'.le, max_eq_right (a := b.low d - v d) (by linarith), max_eq_left (by linarith)]
    · rw [min_eq_left h', max_eq_right (by rw [max_le_iff]; constructor <;> linarith)]
      ring

theorem dist_ge (v : Vec D K) {b : Box D K} {p : Vec D K} (hp : b.containsPoint p = true) (d : Fin D) :
    vecToBox v b d * vecToBox v b d ≤ (v d - p d) * (v d - p d) := by
  obtain ⟨h1, h2⟩ := (C35_contains_point _ _).mp hp d
  rw [vecToBox_eq]
  rcases max_cases (max (b.low d - v d) (v d - b.high d)) 0 with ⟨e, h⟩ | ⟨e, h⟩
  · rw [e]
    rcases max_cases (b.low d - v d) (v d - b.high d) with ⟨e', _⟩ | ⟨e', _⟩
    · rw [e'] at h ⊢; nlinarith
    · rw [e'] at h ⊢; nlinarith
  · rw [e]; nlinarith [mul_self_nonneg (v d - p d)]

/-- **C66 (distance to a box).** `lenSquared(vecToBox(v, box))` is the least squared distance of `v` to a point of the box. -/
theorem C66_distance (v : Vec D K) (b : Box D K) (hb : ∀ d, b.low d ≤ b.high d) :
    IsLeast {x | ∃ p : Vec D K, (∀ d, b.low d ≤ p d ∧ p d ≤ b.high d) ∧ x = ∑ d, (v d - p d) ^ 2} (lenSq (vecToBox v b)) := by
  simp only [← C35_contains_point]
  constructor
  · refine ⟨clamp v b, clamp_mem v hb, ?_⟩
    rw [lenSq_eq]
    exact Finset.sum_congr rfl fun d _ => by rw [pow_two, clamp_dist v hb]
  · rintro x ⟨p, hp, rfl⟩
    rw [lenSq_eq]
    exact Finset.sum_le_sum fun d _ => by rw [pow_two]; exact dist_ge v hp d

/-- **C66 (inside).** The distance is zero exactly for the points of the box. -/
theorem C66_inside (v : Vec D K) (b : Box D K) :
    lenSq (vecToBox v b) = 0 ↔ ∀ d, b.low d ≤ v d ∧ v d ≤ b.high d := by
  rw [lenSq_eq, Finset.sum_eq_zero_iff_of_nonneg fun d _ => mul_self_nonneg _]
  refine forall_congr' fun d => ?_
  simp only [Finset.mem_univ, true_imp_iff, mul_self_eq_zero]
  rw [vecToBox_eq, max_eq_right_iff, max_le_iff]
  constructor <;> rintro ⟨h1, h2⟩ <;> constructor <;> linarith

/-- **C66 (splitting).** `splitBox` splits a box at a position inside it into two boxes: their union is the box, and their
common points are on the splitting plane. -/
theorem C66_split (b : Box D K) (k : Fin D) (x : K) (h1 : b.low k ≤ x) (h2 : x ≤ b.high k) (v : Vec D K) :
    ((∀ d, b.low d ≤ v d ∧ v d ≤ b.high d) ↔
      (∀ d, (Build.splitBox b k x).1.low d ≤ v d ∧ v d ≤ (Build.splitBox b k x).1.high d) ∨
      ∀ d, (Build.splitBox b k x).2.low d ≤ v d ∧ v d ≤ (Build.splitBox b k x).2.high d) ∧
    ((∀ d, (Build.splitBox b k x).1.low d ≤ v d ∧ v d ≤ (Build.splitBox b k x).1.high d) →
      (∀ d, (Build.splitBox b k x).2.low d ≤ v d ∧ v d ≤ (Build.splitBox b k x).2.high d) → v k = x) := by
  simp only [Build.splitBox]
  refine ⟨⟨fun h => ?_, ?_⟩, fun g1 g2 => ?_⟩
  · rcases le_total (v k) x with hx | hx
    · refine Or.inl fun d => ⟨(h d).1, ?_⟩
      rw [Function.update_apply]; split_ifs with hd
      · subst hd; exact hx
      · exact (h d).2
    · refine Or.inr fun d => ⟨?_, (h d).2⟩
      rw [Function.update_apply]; split_ifs with hd
      · subst hd; exact hx
      · exact (h d).1
  · rintro (h | h) d
    · refine ⟨(h d).1, ?_⟩
      have := (h d).2
      rw [Function.update_apply] at this; split_ifs at this with hd
      · subst hd; exact this.trans h2
      · exact this
    · refine ⟨?_, (h d).2⟩
      have := (h d).1
      rw [Function.update_apply] at this; split_ifs at this with hd
      · subst hd; exact h1.trans this
      · exact this
  · have a := (g1 k).2
    have c := (g2 k).1
    simp only [Function.update_self] at a c
    exact le_antisymm a c

/-- Distances to the faces: `vecToCenteredBox` before the maximum with zero. -/
def facePos (v : Vec D K) (b : Box D K) : Vec D K := fun d => max (b.low d - v d) (v d - b.high d)

theorem facePos_eq (v : Vec D K) (b : Box D K) :
    Vecs.sub (fun d => |Vecs.sub v b.center d|) (Vecs.sub b.high b.center) = facePos v b := by
  funext d
  simp only [Vecs.sub_apply, center, scale, add, facePos]
  rcases abs_cases (v d - (b.high d + b.low d) * (1 / 2)) with ⟨h1, h2⟩ | ⟨h1, h2⟩
  · rw [h1, max_eq_right (by linarith)]; ring
  · rw [h1, max_eq_left (by linarith)]; ring

/-- **C66 (distance to the boundary).** `lenSquared(vecToBoxBoundary(v, box))` is the least squared distance of `v` to a point
of the boundary of the box. -/
theorem C66_boundary (hD : 0 < D) (v : Vec D K) (b : Box D K) (hb : ∀ d, b.low d ≤ b.high d) :
    IsLeast {x | ∃ p : Vec D K, ((∀ d, b.low d ≤ p d ∧ p d ≤ b.high d) ∧ ∃ d, p d = b.low d ∨ p d = b.high d) ∧
      x = ∑ d, (v d - p d) ^ 2} (lenSq (vecToBoxBoundary v b)) := by
  have hfp : ∀ d, vecToBox v b d = max (facePos v b d) 0 := vecToBox_eq v b
  rw [vecToBoxBoundary, vecToCenteredBoxBoundary, facePos_eq, vecToLowerQuadrantBoundary]
  simp only
  have hq : vecToLowerQuadrant (facePos v b) = vecToBox v b := by
    funext d; rw [hfp]; rfl
  rw [hq]
  have hdist := C66_distance v b hb
  split_ifs with hall
  · -- inside
    have hin : ∀ d, facePos v b d ≤ 0 := by
      intro d
      have := List.all_eq_true.mp hall d (List.mem_finRange d)
      rw [decide_eq_true_eq, hfp, max_eq_right_iff] at this
      exact this
    have hne : List.finRange D ≠ [] := by
      intro h
      have := List.length_finRange (n := D)
      rw [h] at this
      simp at this
      omega
    obtain ⟨c, hc, hmin, _⟩ := minElement_spec (fun d : Fin D => -facePos v b d) hne
    have hkey : (fun x y : Fin D => decide (-facePos v b x < -facePos v b y)) =
        fun a b' => decide (facePos v b b' < facePos v b a) := by
      funext x y; simp
    rw [hkey] at hc
    generalize minElement (fun a b' : Fin D => decide (facePos v b b' < facePos v b a)) (List.finRange D) = m at *
    have hcm : c.val = m := by
      obtain ⟨h1, h2⟩ := List.getElem?_eq_some_iff.mp hc
      rw [← h2]; simp
    subst hcm
    have hmax : ∀ d, facePos v b d ≤ facePos v b c := by
      intro d
      have := hmin d.val d (by rw [List.getElem?_eq_getElem (by simp)]; simp)
      linarith
    have hlen : lenSq (fun d => if d.val = c.val then facePos v b d else vecToBox v b d) = facePos v b c * facePos v b c := by
      rw [lenSq_eq, Finset.sum_eq_single c]
      · simp
      · intro d _ hd
        have hd' : d.val ≠ c.val := fun h => hd (Fin.ext h)
        simp only [if_neg hd', hfp, max_eq_right (hin d), mul_zero]
      · intro h; exact absurd (Finset.mem_univ c) h
    rw [hlen]
    have hvin : ∀ d, b.low d ≤ v d ∧ v d ≤ b.high d := by
      intro d
      have := hin d
      rw [facePos, max_le_iff] at this
      constructor <;> linarith [this.1, this.2]
    constructor
    · rcases le_total (b.low c - v c) (v c - b.high c) with h | h
      · refine ⟨Function.update v c (b.high c), ⟨fun d => ?_, c, Or.inr (by simp)⟩, ?_⟩
        · rw [Function.update_apply]; split_ifs with hd
          · subst hd; exact ⟨hb d, le_rfl⟩
          · exact hvin d
        · rw [Finset.sum_eq_single c]
          · rw [facePos, max_eq_right h, Function.update_self]; ring
          · intro d _ hd; rw [Function.update_of_ne hd]; ring
          · intro h; exact absurd (Finset.mem_univ c) h
      · refine ⟨Function.update v c (b.low c), ⟨fun d => ?_, c, Or.inl (by simp)⟩, ?_⟩
        · rw [Function.update_apply]; split_ifs with hd
          · subst hd; exact ⟨le_rfl, hb d⟩
          · exact hvin d
        · rw [Finset.sum_eq_single c]
          · rw [facePos, max_eq_left h, Function.update_self]; ring
          · intro d _ hd; rw [Function.update_of_ne hd]; ring
          · intro h; exact absurd (Finset.mem_univ c) h
    · rintro x ⟨p, ⟨hp, d, hd⟩, rfl⟩
      have h1 : (v d - p d) ^ 2 ≤ ∑ d, (v d - p d) ^ 2 := Finset.single_le_sum (f := fun d => (v d - p d) ^ 2)
        (fun i _ => sq_nonneg _) (Finset.mem_univ d)
      refine le_trans ?_ h1
      have h2 := hmax d
      have h3 := hin c
      have h4 : b.low d - v d ≤ facePos v b d := le_max_left _ _
      have h5 : v d - b.high d ≤ facePos v b d := le_max_right _ _
      rcases hd with hd | hd <;> rw [hd] <;> nlinarith
  · -- outside
    constructor
    · obtain ⟨_, hx⟩ := hdist.1
      refine ⟨clamp v b, ⟨(C35_contains_point _ _).mp (clamp_mem v hb), ?_⟩, ?_⟩
      · by_contra hno
        push_neg at hno
        refine hall (List.all_eq_true.mpr fun d _ => ?_)
        rw [decide_eq_true_eq]
        have := hno d
        have hbd := hb d
        rw [clamp] at this
        rw [vecToBox_eq, max_eq_right]
        rw [max_le_iff]
        constructor
        · by_contra h
          rw [max_eq_right (by linarith), min_eq_left hbd] at this
          exact this.1 rfl
        · by_contra h
          rw [max_eq_left (by linarith), min_eq_right (by linarith)] at this
          exact this.2 rfl
      · rw [lenSq_eq]
        exact Finset.sum_congr rfl fun d _ => by rw [pow_two, clamp_dist v hb]
    · rintro x ⟨p, ⟨hp, _⟩, rfl⟩
      exact hdist.2 ⟨p, hp, rfl⟩

/-- A point inside, a point outside and the split of a box. -/
example : lenSq (vecToBox (![5, 1] : Vec 2 ℚ) ⟨![0, 0], ![2, 4]⟩) = 9 ∧ lenSq (vecToBox (![1, 1] : Vec 2 ℚ) ⟨![0, 0], ![2, 4]⟩) = 0 ∧
    lenSq (vecToBoxBoundary (![5, 1] : Vec 2 ℚ) ⟨![0, 0], ![2, 4]⟩) = 9 ∧
    lenSq (vecToBoxBoundary (![1, 3 / 2] : Vec 2 ℚ) ⟨![0, 0], ![2, 4]⟩) = 1 := by decide +kernel

end Box

namespace Samp
open Vecs
variable {D : Nat} {K : Type} [Field K] [LinearOrder K] [IsStrictOrderedRing K]

theorem centersLoop_spec : ∀ (l : List (Nat × Vec D K)) (st : List (Acc D K)), (∀ x ∈ l, x.1 < st.length) →
    ∃ st', centersLoop l st = some st' ∧ st'.length = st.length ∧ ∀ (q : Nat) (a : Acc D K), st[q]? = some a →
      ∃ a', st'[q]? = some a' ∧ a'.1 = a.1 + (l.filter fun x => x.1 == q).length ∧
        ∀ d, a'.2 d * (a'.1 + 1 : K) = a.2 d * (a.1 + 1 : K) + ((l.filter fun x => x.1 == q).map fun x => x.2 d).sum
  | [], st, _ => ⟨st, rfl, rfl, fun q a ha => ⟨a, ha, by simp, by simp⟩⟩
  | (q, p) :: l, st, h => by
    have hq : q < st.length := h (q, p) (List.mem_cons_self ..)
    obtain ⟨st', h1, h2, h3⟩ := centersLoop_spec l (st.modify q fun a => centerStep a p)
      (fun x hx => by rw [List.length_modify]; exact h x (List.mem_cons_of_mem _ hx))
    refine ⟨st', by rw [centersLoop, if_pos hq]; exact h1, by rw [h2, List.length_modify], fun r a ha => ?_⟩
    by_cases hr : q = r
    · subst hr
      obtain ⟨a', g1, g2, g3⟩ := h3 q (centerStep a p) (by rw [List.getElem?_modify_eq, ha]; rfl)
      refine ⟨a', g1, ?_, fun d => ?_⟩
      · rw [g2, List.filter_cons_of_pos (by simp), List.length_cons, centerStep]; omega
      · rw [g3 d, List.filter_cons_of_pos (by simp), List.map_cons, List.sum_cons, ← add_assoc]
        congr 1
        have hne : (a.1 : K) + 1 + 1 ≠ 0 := by positivity
        have hne' : (1 : K) + (a.1 + 1) ≠ 0 := by positivity
        simp only [centerStep, add, scale]
        push_cast
        field_simp
        ring
    · obtain ⟨a', g1, g2, g3⟩ := h3 r a (by rw [List.getElem?_modify, ha]; simp [hr])
      rw [List.filter_cons_of_neg (by simpa using hr)]
      exact ⟨a', g1, g2, g3⟩

/-- **C67 (partial).** `findPartitionCenters` returns for each part the sum of its sample points divided by their number plus
one. -/
theorem C67_partial (n : Nat) (sample : List (Nat × Vec D K)) (h : ∀ x ∈ sample, x.1 < n) :
    ∃ cs, centers n sample = some cs ∧ cs.length = n ∧ ∀ (q : Nat) (c : Vec D K), cs[q]? = some c → ∀ d,
      c d = ((sample.filter fun x => x.1 == q).map fun x => x.2 d).sum / ((sample.filter fun x => x.1 == q).length + 1 : Nat) := by
  obtain ⟨st, h1, h2, h3⟩ := centersLoop_spec sample (List.replicate n (0, fun _ => 0)) (by simpa using h)
  refine ⟨st.map Prod.snd, by rw [centers, h1]; rfl, by simp [h2], fun q c hc d => ?_⟩
  rw [List.getElem?_map, Option.map_eq_some_iff] at hc
  obtain ⟨a, ha, rfl⟩ := hc
  have hq : q < n := by
    have := (List.getElem?_eq_some_iff.mp ha).1
    simpa [h2] using this
  obtain ⟨a', g1, g2, g3⟩ := h3 q (0, fun _ => 0) (by rw [List.getElem?_replicate, if_pos hq])
  rw [ha] at g1
  cases g1
  simp only [zero_add] at g2
  have := g3 d
  rw [g2] at this
  have hne : ((sample.filter fun x => x.1 == q).length + 1 : K) ≠ 0 := by positivity
  rw [eq_div_iff (by push_cast; exact hne)]
  push_cast
  simpa using this

/-- **C67 (violated).** The result is never the mean of the sample points of a part, unless this mean is zero. -/
theorem C67_violated (n : Nat) (sample : List (Nat × Vec D K)) (h : ∀ x ∈ sample, x.1 < n) (q : Nat) (hq : q < n) (d : Fin D)
    (hs : ((sample.filter fun x => x.1 == q).map fun x => x.2 d).sum ≠ 0) :
    ∃ cs c, centers n sample = some cs ∧ cs[q]? = some c ∧
      c d ≠ ((sample.filter fun x => x.1 == q).map fun x => x.2 d).sum / ((sample.filter fun x => x.1 == q).length : Nat) := by
  obtain ⟨cs, h1, h2, h3⟩ := C67_partial n sample h
  have hc : cs[q]? = some (cs[q]'(by omega)) := List.getElem?_eq_getElem _
  refine ⟨cs, _, h1, hc, ?_⟩
  rw [h3 q _ hc d]
  intro he
  by_cases hl : (sample.filter fun x => x.1 == q).length = 0
  · rw [List.length_eq_zero_iff.mp hl] at hs
    simp at hs
  · have hp : ((sample.filter fun x => x.1 == q).length : K) ≠ 0 := by exact_mod_cast hl
    rw [div_eq_div_iff (by positivity) hp] at he
    have := mul_left_cancel₀ hs he
    push_cast at this
    linarith

/-- Two parts; the centre of the first one is `(2, 2)` instead of `(3, 3)`. -/
example : (centers 2 [(0, (![2, 2] : Vec 2 ℚ)), (1, ![7, 7]), (0, ![4, 4])]).map (fun l => l.map fun c => (c 0, c 1)) =
    some [(2, 2), (7 / 2, 7 / 2)] := by decide +kernel

end Samp
end Verif
