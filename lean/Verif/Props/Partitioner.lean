import Verif.Model.Partitioner
import Mathlib.Analysis.Convex.Hull
import Mathlib.Order.Bounds.Basic
import Mathlib.Order.Bounds.Defs
import Mathlib.Algebra.Order.Ring.Rat
import Mathlib.Data.Finset.Image
import Mathlib.Data.Nat.Bitwise
import Mathlib.Data.List.Nodup
import Mathlib.Tactic.Linarith
import Mathlib.Tactic.NormNum
import Mathlib.Tactic.FinCases

/-!
# C41-C45: point statistics and splitters
-/
namespace Verif
namespace Part
variable {D : Nat} {K : Type*} [Field K] [LinearOrder K]

/-! ### C41 -/

/-- The ids that count for the statistics. -/
def counted (D : Nat) (ignoreInf : Bool) (ids : List Nat) : List Nat :=
  ids.filter fun id => isFinite D id || !ignoreInf

theorem seqDim_eq (big tiny : K) (ign : Bool) (c : Nat → K) (ids : List Nat) :
    seqDim D big tiny ign c ids =
      ((counted D ign ids).foldl (fun m id => min m (c id)) big,
       (counted D ign ids).foldl (fun m id => max m (c id)) tiny) := by
  unfold seqDim counted
  generalize big = b
  generalize tiny = t
  induction ids generalizing b t with
  | nil => rfl
  | cons a l ih =>
    rw [List.foldl_cons]
    by_cases h : (isFinite D a || !ign) = true
    · rw [if_pos h, ih, List.filter_cons_of_pos (by simpa using h)]; rfl
    · rw [if_neg h, ih, List.filter_cons_of_neg (by simpa using h)]

theorem foldl_min_isLeast (c : Nat → K) (l : List Nat) (b : K) :
    IsLeast {x | x = b ∨ ∃ i ∈ l, x = c i} (l.foldl (fun m id => min m (c id)) b) := by
  induction l generalizing b with
  | nil => exact ⟨Or.inl rfl, by rintro x (rfl | ⟨i, hi, _⟩); exacts [le_refl _, absurd hi (by simp)]⟩
  | cons a l ih =>
    rw [List.foldl_cons]
    obtain ⟨h1, h2⟩ := ih (min b (c a))
    refine ⟨?_, ?_⟩
    · rcases h1 with h1 | ⟨i, hi, h1⟩
      · rw [Set.mem_setOf_eq, h1]
        rcases min_choice b (c a) with h | h
        · exact Or.inl h
        · exact Or.inr ⟨a, by simp, h⟩
      · exact Or.inr ⟨i, by simp [hi], h1⟩
    · rintro x (rfl | ⟨i, hi, rfl⟩)
      · exact (h2 (Or.inl rfl)).trans (min_le_left _ _)
      · rcases List.mem_cons.mp hi with rfl | hi
        · exact (h2 (Or.inl rfl)).trans (min_le_right _ _)
        · exact h2 (Or.inr ⟨i, hi, rfl⟩)

theorem foldl_max_isGreatest (c : Nat → K) (l : List Nat) (b : K) :
    IsGreatest {x | x = b ∨ ∃ i ∈ l, x = c i} (l.foldl (fun m id => max m (c id)) b) := by
  induction l generalizing b with
  | nil => exact ⟨Or.inl rfl, by rintro x (rfl | ⟨i, hi, _⟩); exacts [le_refl _, absurd hi (by simp)]⟩
  | cons a l ih =>
    rw [List.foldl_cons]
    obtain ⟨h1, h2⟩ := ih (max b (c a))
    refine ⟨?_, ?_⟩
    · rcases h1 with h1 | ⟨i, hi, h1⟩
      · rw [Set.mem_setOf_eq, h1]
        rcases max_choice b (c a) with h | h
        · exact Or.inl h
        · exact Or.inr ⟨a, by simp, h⟩
      · exact Or.inr ⟨i, by simp [hi], h1⟩
    · rintro x (rfl | ⟨i, hi, rfl⟩)
      · exact (le_max_left _ _).trans (h2 (Or.inl rfl))
      · rcases List.mem_cons.mp hi with rfl | hi
        · exact (le_max_right _ _).trans (h2 (Or.inl rfl))
        · exact h2 (Or.inr ⟨i, hi, rfl⟩)

/-- The statistics of an object that has seen the ids `l`. -/
def Sees (big tiny : K) (pts : Nat → Vec D K) (l : List Nat) (s : Stats D K) : Prop :=
  ∀ d, IsLeast {x | x = big ∨ ∃ i ∈ l, x = pts i d} (s.min d) ∧
    IsGreatest {x | x = tiny ∨ ∃ i ∈ l, x = pts i d} (s.max d)

theorem Sees.combine2 {big tiny : K} {pts : Nat → Vec D K} {l m : List Nat} {s t : Stats D K}
    (hs : Sees big tiny pts l s) (ht : Sees big tiny pts m t) :
    Sees big tiny pts (l ++ m) (combine2 s t) := by
  intro d
  obtain ⟨⟨a1, a2⟩, b1, b2⟩ := hs d
  obtain ⟨⟨c1, c2⟩, e1, e2⟩ := ht d
  refine ⟨⟨?_, ?_⟩, ?_, ?_⟩
  · show min (s.min d) (t.min d) ∈ _
    rcases min_choice (s.min d) (t.min d) with h | h <;> rw [h]
    · rcases a1 with a1 | ⟨i, hi, a1⟩
      · exact Or.inl a1
      · exact Or.inr ⟨i, by simp [hi], a1⟩
    · rcases c1 with a1 | ⟨i, hi, a1⟩
      · exact Or.inl a1
      · exact Or.inr ⟨i, by simp [hi], a1⟩
  · rintro x (rfl | ⟨i, hi, rfl⟩)
    · exact (min_le_left _ _).trans (a2 (Or.inl rfl))
    · rcases List.mem_append.mp hi with hi | hi
      · exact (min_le_left _ _).trans (a2 (Or.inr ⟨i, hi, rfl⟩))
      · exact (min_le_right _ _).trans (c2 (Or.inr ⟨i, hi, rfl⟩))
  · show max (s.max d) (t.max d) ∈ _
    rcases max_choice (s.max d) (t.max d) with h | h <;> rw [h]
    · rcases b1 with a1 | ⟨i, hi, a1⟩
      · exact Or.inl a1
      · exact Or.inr ⟨i, by simp [hi], a1⟩
    · rcases e1 with a1 | ⟨i, hi, a1⟩
      · exact Or.inl a1
      · exact Or.inr ⟨i, by simp [hi], a1⟩
  · rintro x (rfl | ⟨i, hi, rfl⟩)
    · exact (b2 (Or.inl rfl)).trans (le_max_left _ _)
    · rcases List.mem_append.mp hi with hi | hi
      · exact (b2 (Or.inr ⟨i, hi, rfl⟩)).trans (le_max_left _ _)
      · exact (e2 (Or.inr ⟨i, hi, rfl⟩)).trans (le_max_right _ _)

theorem addPoint_sees {big tiny : K} {pts : Nat → Vec D K} {ign : Bool} {l : List Nat}
    {s : Stats D K} (hs : Sees big tiny pts l s) (id : Nat) :
    Sees big tiny pts (l ++ counted D ign [id]) (addPoint pts ign s id) := by
  unfold addPoint
  by_cases h : (isFinite D id || !ign) = true
  · rw [if_pos h]
    have hc : counted D ign [id] = [id] := by simp only [counted, List.filter_cons, h, if_true, List.filter_nil]
    rw [hc]
    have hone : Sees big tiny pts [id]
        (⟨fun d => min big (pts id d), fun _ => 0, fun d => max tiny (pts id d)⟩ : Stats D K) := by
      intro d
      have h1 := foldl_min_isLeast (fun i => pts i d) [id] big
      have h2 := foldl_max_isGreatest (fun i => pts i d) [id] tiny
      exact ⟨h1, h2⟩
    have hcomb := hs.combine2 hone
    intro d
    have := hcomb d
    simp only [Part.combine2] at this
    have hb : s.min d ≤ big := (hs d).1.2 (Or.inl rfl)
    have ht : tiny ≤ s.max d := (hs d).2.2 (Or.inl rfl)
    rw [← min_assoc, min_eq_left hb, ← max_assoc, max_eq_left ht] at this
    exact this
  · rw [if_neg h]
    have hc : counted D ign [id] = [] := by simp only [counted, List.filter_cons, h, List.filter_nil]; rfl
    rw [hc, List.append_nil]
    exact hs

theorem threadStats_sees (big tiny : K) (pts : Nat → Vec D K) (ign : Bool) (ids : List Nat) :
    Sees big tiny pts (counted D ign ids) (threadStats big tiny pts ign ids) := by
  have : ∀ (ids l : List Nat) (s : Stats D K), Sees big tiny pts l s →
      Sees big tiny pts (l ++ counted D ign ids) (ids.foldl (addPoint pts ign) s) := by
    intro ids
    induction ids with
    | nil => intro l s hs; simpa [counted] using hs
    | cons a ids ih =>
      intro l s hs
      have := ih _ _ (addPoint_sees (ign := ign) hs a)
      rw [List.foldl_cons]
      have e : counted D ign (a :: ids) = counted D ign [a] ++ counted D ign ids := by
        simp only [counted, ← List.filter_append, List.singleton_append]
      rw [e, ← List.append_assoc]
      exact this
  have h0 := this ids [] (Stats.init big tiny) (by
    intro d
    have h1 := foldl_min_isLeast (fun i => pts i d) [] big
    have h2 := foldl_max_isGreatest (fun i => pts i d) [] tiny
    exact ⟨h1, h2⟩)
  rw [List.nil_append] at h0
  exact h0

theorem combine_sees (big tiny : K) (pts : Nat → Vec D K) (ign : Bool) (work : List (List Nat)) :
    Sees big tiny pts (counted D ign work.flatten)
      (combine big tiny (work.map (threadStats big tiny pts ign))) := by
  cases work with
  | nil =>
    intro d
    have h1 := foldl_min_isLeast (fun i => pts i d) [] big
    have h2 := foldl_max_isGreatest (fun i => pts i d) [] tiny
    exact ⟨h1, h2⟩
  | cons w ws =>
    rw [List.map_cons]
    unfold combine
    have : ∀ (ws : List (List Nat)) (l : List Nat) (s : Stats D K), Sees big tiny pts l s →
        Sees big tiny pts (l ++ counted D ign ws.flatten)
          ((ws.map (threadStats big tiny pts ign)).foldl Part.combine2 s) := by
      intro ws
      induction ws with
      | nil => intro l s hs; simpa [counted] using hs
      | cons v ws ih =>
        intro l s hs
        have := ih _ _ (hs.combine2 (threadStats_sees big tiny pts ign v))
        rw [List.map_cons, List.foldl_cons, List.flatten_cons]
        have e : counted D ign (v ++ ws.flatten) = counted D ign v ++ counted D ign ws.flatten := by
          simp only [counted, List.filter_append]
        rw [e, ← List.append_assoc]
        exact this
    have := this ws _ _ (threadStats_sees big tiny pts ign w)
    have e : counted D ign ((w :: ws).flatten) = counted D ign w ++ counted D ign ws.flatten := by
      simp only [counted, List.flatten_cons, List.filter_append]
    rw [e]
    exact this

/-- The statistics are the tight bounding box of the points with the given ids, and `mid` is the middle
of the box. -/
def Tight (pts : Nat → Vec D K) (ids : Set Nat) (s : Stats D K) : Prop :=
  ∀ d, IsLeast {x | ∃ i ∈ ids, x = pts i d} (s.min d) ∧
    IsGreatest {x | ∃ i ∈ ids, x = pts i d} (s.max d) ∧ s.mid d = (s.max d + s.min d) / 2

theorem sees_tight {big tiny : K} {pts : Nat → Vec D K} {l : List Nat} {s : Stats D K}
    (hs : Sees big tiny pts l s) (hmid : ∀ d, s.mid d = (s.max d + s.min d) / 2)
    (hne : l ≠ []) (hbig : ∀ i ∈ l, ∀ d, pts i d ≤ big) (htiny : ∀ d, ∃ i ∈ l, tiny ≤ pts i d) :
    Tight pts {i | i ∈ l} s := by
  intro d
  obtain ⟨⟨a1, a2⟩, b1, b2⟩ := hs d
  refine ⟨⟨?_, fun x hx => a2 (Or.inr hx)⟩, ⟨?_, fun x hx => b2 (Or.inr hx)⟩, hmid d⟩
  · rcases a1 with a1 | a1
    · obtain ⟨i, hi⟩ := List.exists_mem_of_ne_nil l hne
      exact ⟨i, hi, le_antisymm (a2 (Or.inr ⟨i, hi, rfl⟩)) (a1 ▸ hbig i hi d)⟩
    · exact a1
  · rcases b1 with b1 | b1
    · obtain ⟨i, hi, h⟩ := htiny d
      exact ⟨i, hi, le_antisymm (b1 ▸ h) (b2 (Or.inr ⟨i, hi, rfl⟩))⟩
    · exact b1

/-- **C41 (partial).** Sequential version: tight bounding box of the counted points, provided that in
every dimension some coordinate is at least `numeric_limits::min()`, the (positive) start value of the
maximum. -/
theorem C41_seq_partial (big tiny : K) (pts : Nat → Vec D K) (ids : List Nat) (ign : Bool)
    (hne : ∃ i ∈ ids, isFinite D i = true ∨ ign = false)
    (hbig : ∀ i ∈ ids, ∀ d, pts i d ≤ big)
    (htiny : ∀ d, ∃ i ∈ ids, (isFinite D i = true ∨ ign = false) ∧ tiny ≤ pts i d) :
    Tight pts {i | i ∈ ids ∧ (isFinite D i = true ∨ ign = false)} (getPointStatsSeq big tiny pts ids ign) := by
  have hmem : ∀ i, i ∈ counted D ign ids ↔ i ∈ ids ∧ (isFinite D i = true ∨ ign = false) := by
    intro i; simp [counted]
  have := sees_tight (big := big) (tiny := tiny) (pts := pts) (l := counted D ign ids)
    (s := getPointStatsSeq big tiny pts ids ign) (by
      intro d
      simp only [getPointStatsSeq, seqDim_eq]
      exact ⟨foldl_min_isLeast (fun i => pts i d) _ _, foldl_max_isGreatest (fun i => pts i d) _ _⟩)
    (fun d => rfl)
    (by
      obtain ⟨i, hi⟩ := hne
      exact List.ne_nil_of_mem ((hmem i).mpr hi))
    (fun i hi d => hbig i ((hmem i).mp hi).1 d)
    (fun d => by
      obtain ⟨i, hi, h1, h2⟩ := htiny d
      exact ⟨i, (hmem i).mpr ⟨hi, h1⟩, h2⟩)
  simpa only [hmem] using this

/-- **C41 (partial).** Parallel version: whatever threads take part, whatever ids each of them processes
in whatever order, the result is the tight bounding box (under the same condition). -/
theorem C41_parallel_partial (big tiny : K) (pts : Nat → Vec D K) (ids : List Nat)
    (work : List (List Nat)) (hwork : work.flatten.Perm ids) (ign : Bool)
    (hne : ∃ i ∈ ids, isFinite D i = true ∨ ign = false)
    (hbig : ∀ i ∈ ids, ∀ d, pts i d ≤ big)
    (htiny : ∀ d, ∃ i ∈ ids, (isFinite D i = true ∨ ign = false) ∧ tiny ≤ pts i d) :
    Tight pts {i | i ∈ ids ∧ (isFinite D i = true ∨ ign = false)} (getPointStats big tiny pts work ign) := by
  have hmem : ∀ i, i ∈ counted D ign work.flatten ↔
      i ∈ ids ∧ (isFinite D i = true ∨ ign = false) := by
    intro i
    simp only [counted, List.mem_filter, hwork.mem_iff]
    simp
  have := sees_tight (big := big) (tiny := tiny) (pts := pts) (l := counted D ign work.flatten)
    (s := getPointStats big tiny pts work ign)
    (fun d => combine_sees big tiny pts ign work d)
    (fun d => rfl)
    (by
      obtain ⟨i, hi⟩ := hne
      exact List.ne_nil_of_mem ((hmem i).mpr hi))
    (fun i hi d => hbig i ((hmem i).mp hi).1 d)
    (fun d => by
      obtain ⟨i, hi, h1, h2⟩ := htiny d
      exact ⟨i, (hmem i).mpr ⟨hi, h1⟩, h2⟩)
  simpa only [hmem] using this

/-- Two threads, three points, one of them infinite. -/
example : (getPointStats (D := 1) (1000 : ℚ) (1/1000) (fun i => ![if i = 2 then 5 else if i = 3 then -7 else 99])
    [[2, 2 ^ 64 - 1], [3]] true).max 0 = 5 ∧
    (getPointStats (D := 1) (1000 : ℚ) (1/1000) (fun i => ![if i = 2 then 5 else if i = 3 then -7 else 99])
    [[2, 2 ^ 64 - 1], [3]] true).min 0 = -7 := by
  decide +kernel

/-- **C41 (violated).** If all coordinates of some dimension are negative, the reported maximum is not
the coordinate of any point: it is the start value `numeric_limits::min()`, which is positive. -/
theorem C41_negative_violated (big tiny : K) (pts : Nat → Vec D K) (work : List (List Nat)) (ign : Bool)
    (d : Fin D) (hneg : ∀ i ∈ work.flatten, pts i d < 0) (htiny : 0 < tiny) :
    (getPointStats big tiny pts work ign).max d = tiny ∧
      (getPointStatsSeq big tiny pts work.flatten ign).max d = tiny := by
  have hmem : ∀ i ∈ counted D ign work.flatten, pts i d < 0 :=
    fun i hi => hneg i (List.mem_filter.mp hi).1
  constructor
  · have h := (combine_sees big tiny pts ign work d).2
    rcases h.1 with h1 | ⟨i, hi, h1⟩
    · exact h1
    · exact absurd (h.2 (Or.inl rfl)) (by rw [h1]; exact not_le.mpr ((hmem i hi).trans htiny))
  · have h := foldl_max_isGreatest (fun i => pts i d) (counted D ign work.flatten) tiny
    simp only [getPointStatsSeq, seqDim_eq]
    rcases h.1 with h1 | ⟨i, hi, h1⟩
    · exact h1
    · exact absurd (h.2 (Or.inl rfl)) (by rw [h1]; exact not_le.mpr ((hmem i hi).trans htiny))

example : (getPointStats (D := 1) (1000 : ℚ) (1/1000) (fun _ => ![-5]) [[1]] true).max 0 = 1/1000 := by
  decide +kernel

/-! ### C42 -/

theorem mem_infIds {k : Nat} (hD : D ≤ 64) : k ∈ infIds D ↔ cINF D ≤ k ∧ k < 2 ^ 64 := by
  have : (2 : Nat) ^ D ≤ 2 ^ 64 := Nat.pow_le_pow_right (by omega) hD
  simp only [infIds, List.mem_range'_1, cINF]
  omega

theorem mem_foldl_insert (l : List Nat) (s : Finset Nat) (k : Nat) :
    k ∈ l.foldl (fun s k => insert k s) s ↔ k ∈ l ∨ k ∈ s := by
  induction l generalizing s with
  | nil => simp
  | cons a l ih => rw [List.foldl_cons, ih]; simp; tauto

omit [Field K] [LinearOrder K] in
/-- What the distribution loop does, if the part numbers are in range. -/
theorem distribute_spec (partOf : Nat → Option Nat) (f : Nat → Nat) :
    ∀ (ids : List Nat) (ps : List (Partition D K)),
      (∀ id ∈ ids, isFinite D id = true → partOf id = some (f id) ∧ f id < ps.length) →
      ∃ qs, distribute D partOf ids ps = some qs ∧ qs.length = ps.length ∧
        ∀ i (h : i < qs.length) (h' : i < ps.length), qs[i].id = ps[i].id ∧
          qs[i].bounds = ps[i].bounds ∧
          ∀ id, id ∈ qs[i].points ↔ id ∈ ps[i].points ∨ (id ∈ ids ∧ isFinite D id = true ∧ f id = i) := by
  intro ids
  induction ids with
  | nil => intro ps _; exact ⟨ps, rfl, rfl, fun i h h' => ⟨rfl, rfl, by simp⟩⟩
  | cons a ids ih =>
    intro ps hp
    rw [distribute]
    by_cases ha : isFinite D a = true
    · obtain ⟨h1, h2⟩ := hp a (by simp) ha
      have hins : insertAt ps (f a) a =
          some (ps.set (f a) { ps[f a] with points := insert a ps[f a].points }) := by
        rw [insertAt, dif_pos h2]
      rw [if_neg (by simp [ha]), h1, Option.bind_some, hins, Option.bind_some]
      obtain ⟨qs, hq1, hq2, hq3⟩ := ih (ps.set (f a) { ps[f a] with points := insert a ps[f a].points })
        (by
          intro id hid hf
          have := hp id (by simp [hid]) hf
          rw [List.length_set]
          exact this)
      rw [List.length_set] at hq2
      refine ⟨qs, hq1, hq2, ?_⟩
      intro i hi hi'
      obtain ⟨g1, g2, g3⟩ := hq3 i hi (by rw [List.length_set]; exact hi')
      by_cases hfi : f a = i
      · subst hfi
        rw [List.getElem_set_self] at g1 g2 g3
        refine ⟨g1, g2, fun id => ?_⟩
        rw [g3]
        simp only [Finset.mem_insert, List.mem_cons]
        constructor
        · rintro ((rfl | h) | ⟨h, h', h''⟩)
          · exact Or.inr ⟨Or.inl rfl, ha, rfl⟩
          · exact Or.inl h
          · exact Or.inr ⟨Or.inr h, h', h''⟩
        · rintro (h | ⟨rfl | h, h', h''⟩)
          · exact Or.inl (Or.inr h)
          · exact Or.inl (Or.inl rfl)
          · exact Or.inr ⟨h, h', h''⟩
      · rw [List.getElem_set_ne hfi] at g1 g2 g3
        refine ⟨g1, g2, fun id => ?_⟩
        rw [g3]
        simp only [List.mem_cons]
        constructor
        · rintro (h | ⟨h, h', h''⟩)
          · exact Or.inl h
          · exact Or.inr ⟨Or.inr h, h', h''⟩
        · rintro (h | ⟨rfl | h, h', h''⟩)
          · exact Or.inl h
          · exact absurd h'' hfi
          · exact Or.inr ⟨h, h', h''⟩
    · rw [if_pos (by simp [ha])]
      obtain ⟨qs, hq1, hq2, hq3⟩ := ih ps (fun id hid => hp id (by simp [hid]))
      refine ⟨qs, hq1, hq2, fun i hi hi' => ?_⟩
      obtain ⟨g1, g2, g3⟩ := hq3 i hi hi'
      refine ⟨g1, g2, fun id => ?_⟩
      rw [g3]
      constructor
      · rintro (h | ⟨h, h'⟩)
        · exact Or.inl h
        · exact Or.inr ⟨by simp [h], h'⟩
      · rintro (h | ⟨h, h'⟩)
        · exact Or.inl h
        · rcases List.mem_cons.mp h with rfl | h
          · exact absurd h'.1 ha
          · exact Or.inr ⟨h, h'⟩

omit [Field K] [LinearOrder K] in
theorem addInfinite_spec (hD : D ≤ 64) (ign : Bool) (ps : List (Partition D K)) :
    (addInfinite D ign ps).length = ps.length ∧
      ∀ i (h : i < (addInfinite D ign ps).length) (h' : i < ps.length),
        (addInfinite D ign ps)[i].id = ps[i].id ∧ (addInfinite D ign ps)[i].bounds = ps[i].bounds ∧
        ∀ id, id ∈ (addInfinite D ign ps)[i].points ↔
          id ∈ ps[i].points ∨ (ign = false ∧ cINF D ≤ id ∧ id < 2 ^ 64) := by
  unfold addInfinite
  cases ign with
  | true => simp
  | false =>
    simp only [Bool.not_false, if_true, List.length_map, true_and]
    intro i h h'
    refine ⟨by simp, by simp, fun id => ?_⟩
    simp only [List.getElem_map, mem_foldl_insert, mem_infIds hD]
    tauto

/-- The full effect of a splitter whose part numbers are `f` and whose initial parts are `init`. -/
theorem splitter_spec (hD : D ≤ 64) (partOf : Nat → Option Nat) (f : Nat → Nat) (ids : List Nat)
    (init : List (Partition D K)) (ign : Bool) (hinit : ∀ p ∈ init, p.points = ∅)
    (hp : ∀ id ∈ ids, isFinite D id = true → partOf id = some (f id) ∧ f id < init.length) :
    ∃ qs, (distribute D partOf ids init).map (addInfinite D ign) = some qs ∧
      qs.length = init.length ∧
      ∀ i (h : i < qs.length) (h' : i < init.length), qs[i].id = init[i].id ∧
        qs[i].bounds = init[i].bounds ∧
        ∀ id, id ∈ qs[i].points ↔ (id ∈ ids ∧ isFinite D id = true ∧ f id = i) ∨
          (ign = false ∧ cINF D ≤ id ∧ id < 2 ^ 64) := by
  obtain ⟨qs, h1, h2, h3⟩ := distribute_spec (D := D) partOf f ids init hp
  obtain ⟨g1, g2⟩ := addInfinite_spec hD ign qs
  refine ⟨addInfinite D ign qs, by rw [h1]; rfl, g1.trans h2, ?_⟩
  intro i hi hi'
  have hq : i < qs.length := by omega
  obtain ⟨a1, a2, a3⟩ := g2 i hi hq
  obtain ⟨b1, b2, b3⟩ := h3 i hq hi'
  refine ⟨a1.trans b1, a2.trans b2, fun id => ?_⟩
  rw [a3, b3, hinit _ (List.getElem_mem hi')]
  simp

/-- `ps` splits the ids `ids` into `n` parts: part ids are the indices, every finite id of `ids` is in
exactly one part, no other finite id is in any part, and the infinite ids are in every part unless
they are ignored. -/
def SplitsInto (D n : Nat) (ids : List Nat) (ignoreInf : Bool) (ps : List (Partition D K)) : Prop :=
  ps.length = n ∧ (∀ (i : Nat) (p : Partition D K), ps[i]? = some p → p.id = i) ∧
  (∀ id ∈ ids, id < 2 ^ 64 - 2 ^ D → ∃! i : Nat, ∃ p : Partition D K, ps[i]? = some p ∧ id ∈ p.points) ∧
  (∀ id, id < 2 ^ 64 - 2 ^ D → id ∉ ids → ∀ p ∈ ps, id ∉ p.points) ∧
  ∀ id, 2 ^ 64 - 2 ^ D ≤ id → ∀ p ∈ ps, (id ∈ p.points ↔ ignoreInf = false ∧ id < 2 ^ 64)

omit [Field K] [LinearOrder K] in
theorem splitsInto_of_spec {n : Nat} {ids : List Nat} {ign : Bool} {init qs : List (Partition D K)}
    {f : Nat → Nat} (hn : init.length = n) (hid : ∀ i (h : i < init.length), init[i].id = i)
    (hf : ∀ id ∈ ids, isFinite D id = true → f id < init.length)
    (hl : qs.length = init.length)
    (hq : ∀ i (h : i < qs.length) (h' : i < init.length), qs[i].id = init[i].id ∧
        qs[i].bounds = init[i].bounds ∧
        ∀ id, id ∈ qs[i].points ↔ (id ∈ ids ∧ isFinite D id = true ∧ f id = i) ∨
          (ign = false ∧ cINF D ≤ id ∧ id < 2 ^ 64)) :
    SplitsInto D n ids ign qs := by
  have hfin : ∀ id, isFinite D id = true ↔ id < 2 ^ 64 - 2 ^ D := by
    intro id; rw [isFinite, cINF, decide_eq_true_eq]
  refine ⟨hl.trans hn, ?_, ?_, ?_, ?_⟩
  · intro i p hp
    obtain ⟨h, rfl⟩ := List.getElem?_eq_some_iff.mp hp
    rw [(hq i h (by omega)).1, hid]
  · intro id hid' hlt
    have hfi := hf id hid' ((hfin id).mpr hlt)
    refine ⟨f id, ⟨qs[f id], List.getElem?_eq_getElem (by omega), ?_⟩, ?_⟩
    · rw [(hq (f id) (by omega) hfi).2.2]
      exact Or.inl ⟨hid', (hfin id).mpr hlt, rfl⟩
    · rintro j ⟨p, hp, hmem⟩
      obtain ⟨h, rfl⟩ := List.getElem?_eq_some_iff.mp hp
      rw [(hq j h (by omega)).2.2] at hmem
      rcases hmem with ⟨_, _, h⟩ | ⟨_, h, _⟩
      · exact h.symm
      · simp only [cINF] at h; omega
  · intro id hlt hni p hp hmem
    obtain ⟨i, h, rfl⟩ := List.getElem_of_mem hp
    rw [(hq i h (by omega)).2.2] at hmem
    rcases hmem with ⟨h, _⟩ | ⟨_, h, _⟩
    · exact hni h
    · simp only [cINF] at h; omega
  · intro id hge p hp
    obtain ⟨i, h, rfl⟩ := List.getElem_of_mem hp
    rw [(hq i h (by omega)).2.2]
    constructor
    · rintro (⟨_, h, _⟩ | ⟨h1, _, h2⟩)
      · rw [hfin] at h; omega
      · exact ⟨h1, h2⟩
    · rintro ⟨h1, h2⟩
      exact Or.inr ⟨h1, by simp only [cINF]; omega, h2⟩

theorem testBit_shift (b : Bool) (d j : Nat) : (b.toNat <<< d).testBit j = (b && decide (j = d)) := by
  rw [Nat.testBit_shiftLeft]
  cases b
  · simp
  · by_cases h : j = d
    · subst h; simp
    · simp only [Bool.toNat_true, Bool.true_and, h, decide_false]
      by_cases h2 : d ≤ j
      · have : Nat.testBit 1 (j - d) = false := by
          rw [Bool.eq_false_iff, ne_eq, Nat.testBit_one_eq_true_iff_self_eq_zero]; omega
        rw [this, Bool.and_false]
      · simp [h2]

theorem dWayPart_testBit (stats : Stats D K) (p : Vec D K) (d : Fin D) :
    (dWayPart stats p).testBit d = decide (p d > stats.mid d) := by
  have key : ∀ (l : List (Fin D)) (x : Nat) (j : Nat),
      (l.foldl (fun part dim => part ||| ((decide (p dim > stats.mid dim)).toNat <<< dim.val)) x).testBit j
        = (x.testBit j || l.any fun dim => decide (p dim > stats.mid dim) && decide (j = dim.val)) := by
    intro l
    induction l with
    | nil => intro x j; simp
    | cons a l ih =>
      intro x j
      rw [List.foldl_cons, ih, Nat.testBit_or, testBit_shift, List.any_cons, Bool.or_assoc]
  rw [dWayPart, key]
  rw [Nat.zero_testBit, Bool.false_or, Bool.eq_iff_iff, List.any_eq_true]
  simp only [List.mem_finRange, true_and, Bool.and_eq_true, decide_eq_true_eq]
  constructor
  · rintro ⟨e, h1, h2⟩
    rwa [Fin.ext h2]
  · intro h
    exact ⟨d, h, rfl⟩

theorem dWayPart_lt (stats : Stats D K) (p : Vec D K) : dWayPart stats p < 2 ^ D := by
  have key : ∀ (l : List (Fin D)) (x : Nat), x < 2 ^ D →
      l.foldl (fun part dim => part ||| ((decide (p dim > stats.mid dim)).toNat <<< dim.val)) x < 2 ^ D := by
    intro l
    induction l with
    | nil => intro x hx; exact hx
    | cons a l ih =>
      intro x hx
      rw [List.foldl_cons]
      apply ih
      apply Nat.or_lt_two_pow hx
      rw [Nat.shiftLeft_eq]
      have h1 : (decide (p a > stats.mid a)).toNat ≤ 1 := Bool.toNat_le _
      calc _ ≤ 1 * 2 ^ a.val := Nat.mul_le_mul_right _ h1
        _ < 2 ^ D := by rw [one_mul]; exact Nat.pow_lt_pow_right (by omega) a.isLt
  exact key _ _ (Nat.two_pow_pos D)

theorem dWay_spec (hD : D ≤ 64) (stats : Stats D K) (pts : Nat → Vec D K) (ids : List Nat) (ign : Bool) :
    ∃ qs, dWay stats pts ids ign = some qs ∧
      qs.length = (dWayInit stats).length ∧
      ∀ i (h : i < qs.length) (h' : i < (dWayInit stats).length), qs[i].id = (dWayInit stats)[i].id ∧
        qs[i].bounds = (dWayInit stats)[i].bounds ∧
        ∀ id, id ∈ qs[i].points ↔ (id ∈ ids ∧ isFinite D id = true ∧ dWayPart stats (pts id) = i) ∨
          (ign = false ∧ cINF D ≤ id ∧ id < 2 ^ 64) := by
  apply splitter_spec hD _ (fun id => dWayPart stats (pts id))
  · intro p hp
    simp only [dWayInit, List.mem_map] at hp
    obtain ⟨i, _, rfl⟩ := hp
    rfl
  · intro id _ _
    exact ⟨rfl, by simpa [dWayInit] using dWayPart_lt stats (pts id)⟩

/-- **C42 (d-way splitter).** -/
theorem C42_dWay (hD : D ≤ 64) (stats : Stats D K) (pts : Nat → Vec D K) (ids : List Nat) (ign : Bool) :
    ∃ ps, dWay stats pts ids ign = some ps ∧ SplitsInto D (2 ^ D) ids ign ps := by
  obtain ⟨qs, h1, h2, h3⟩ := dWay_spec hD stats pts ids ign
  refine ⟨qs, h1, splitsInto_of_spec (by simp [dWayInit]) (by intro i h; simp [dWayInit]) ?_ h2 h3⟩
  intro id _ _
  simpa [dWayInit] using dWayPart_lt stats (pts id)

/-- Part number of the two-way splitters. -/
def side (stats : Stats D K) (k : Fin D) (p : Vec D K) : Nat := if p k > stats.mid k then 1 else 0

theorem twoWay_spec (hD : D ≤ 64) (stats : Stats D K) (k : Fin D) (pts : Nat → Vec D K) (ids : List Nat)
    (ign : Bool) :
    ∃ qs, twoWay stats k pts ids ign = some qs ∧
      qs.length = (twoInit stats k).length ∧
      ∀ i (h : i < qs.length) (h' : i < (twoInit stats k).length), qs[i].id = (twoInit stats k)[i].id ∧
        qs[i].bounds = (twoInit stats k)[i].bounds ∧
        ∀ id, id ∈ qs[i].points ↔ (id ∈ ids ∧ isFinite D id = true ∧ side stats k (pts id) = i) ∨
          (ign = false ∧ cINF D ≤ id ∧ id < 2 ^ 64) := by
  apply splitter_spec hD _ (fun id => side stats k (pts id))
  · intro p hp
    simp only [twoInit, List.mem_cons, List.not_mem_nil, or_false] at hp
    rcases hp with rfl | rfl <;> rfl
  · intro id _ _
    refine ⟨by simp [twoPart, side], ?_⟩
    simp only [side, twoInit, List.length_cons, List.length_nil]
    split <;> omega

theorem twoWay_splits (hD : D ≤ 64) (stats : Stats D K) (k : Fin D) (pts : Nat → Vec D K) (ids : List Nat)
    (ign : Bool) : ∃ ps, twoWay stats k pts ids ign = some ps ∧ SplitsInto D 2 ids ign ps := by
  obtain ⟨qs, h1, h2, h3⟩ := twoWay_spec hD stats k pts ids ign
  refine ⟨qs, h1, splitsInto_of_spec (by simp [twoInit]) ?_ ?_ h2 h3⟩
  · intro i h
    match i, h with
    | 0, _ => rfl
    | 1, _ => rfl
  · intro id _ _
    simp only [side, twoInit, List.length_cons, List.length_nil]
    split <;> omega

/-- **C42 (one-dimensional splitter).** For every valid dimension. -/
theorem C42_oneDim (hD : D ≤ 64) (k : Nat) (hk : k < D) (stats : Stats D K) (pts : Nat → Vec D K)
    (ids : List Nat) (ign : Bool) :
    ∃ ps, oneDim k stats pts ids ign = some ps ∧ SplitsInto D 2 ids ign ps :=
  twoWay_splits hD stats ⟨k, hk⟩ pts ids ign

/-- **C42 (cycle splitter).** For every provenance string, also the empty one. -/
theorem C42_cycle (hD : D ≤ 64) (h0 : 0 < D) (provenanceSize : Nat) (stats : Stats D K)
    (pts : Nat → Vec D K) (ids : List Nat) (ign : Bool) :
    ∃ ps, cycle provenanceSize stats pts ids ign = some ps ∧ SplitsInto D 2 ids ign ps :=
  twoWay_splits hD stats ⟨cycleDim D provenanceSize, Nat.mod_lt _ h0⟩ pts ids ign

theorem extendLoop_some (stats : Stats D K) : ∀ (l : List (Fin D)) (e : K) (d : Fin D),
    ∃ d', extendLoop stats l e (some d) = some d' := by
  intro l
  induction l with
  | nil => intro e d; exact ⟨d, rfl⟩
  | cons a l ih =>
    intro e d
    rw [extendLoop]
    split
    · exact ih _ _
    · exact ih _ _

theorem extendLoop_pos (stats : Stats D K) : ∀ (l : List (Fin D)) (e : K),
    (∃ d ∈ l, e < stats.max d - stats.min d) → ∃ d', extendLoop stats l e none = some d' := by
  intro l
  induction l with
  | nil => rintro e ⟨d, hd, _⟩; exact absurd hd (by simp)
  | cons a l ih =>
    rintro e ⟨d, hd, h⟩
    rw [extendLoop]
    split
    · exact extendLoop_some _ _ _ _
    case isFalse hne =>
      rcases List.mem_cons.mp hd with rfl | hd
      · exact absurd h hne
      · exact ih e ⟨d, hd, h⟩

theorem extendLoop_none (stats : Stats D K) : ∀ (l : List (Fin D)) (e : K),
    (∀ d ∈ l, ¬ e < stats.max d - stats.min d) → extendLoop stats l e none = none := by
  intro l
  induction l with
  | nil => intro e _; rfl
  | cons a l ih =>
    intro e h
    rw [extendLoop, if_neg (h a (by simp))]
    exact ih e (fun d hd => h d (by simp [hd]))

/-- **C42 (extend splitter, partial).** If the box has a positive extent in some dimension. -/
theorem C42_extend_partial (hD : D ≤ 64) (stats : Stats D K) (pts : Nat → Vec D K) (ids : List Nat)
    (ign : Bool) (hext : ∃ d, 0 < stats.max d - stats.min d) :
    ∃ ps, extend stats pts ids ign = some ps ∧ SplitsInto D 2 ids ign ps := by
  obtain ⟨d, hd⟩ := hext
  obtain ⟨k, hk⟩ := extendLoop_pos stats (List.finRange D) 0 ⟨d, List.mem_finRange d, hd⟩
  have : extendDim stats = k.val := by rw [extendDim, hk]
  rw [extend, this]
  exact twoWay_splits hD stats k pts ids ign

/-- **C42 (violated).** If the box is a single point (one point, or only coinciding points) the extend
splitter reads the coordinate array out of bounds. -/
theorem C42_extend_violated (hD : D ≤ 64) (stats : Stats D K) (pts : Nat → Vec D K) (ids : List Nat)
    (ign : Bool) (hext : ∀ d, stats.max d = stats.min d) (hne : ∃ id ∈ ids, isFinite D id = true) :
    extend stats pts ids ign = none := by
  have hdim : extendDim stats = 2 ^ 32 - 1 := by
    rw [extendDim, extendLoop_none]
    intro d _
    rw [hext d, sub_self]
    exact lt_irrefl _
  have hpart : ∀ p : Vec D K, twoPart stats (2 ^ 32 - 1) p = none := by
    intro p
    rw [twoPart, dif_neg (by omega)]
  rw [extend, hdim, twoWay]
  have : ∀ (ids : List Nat) (ps : List (Partition D K)), (∃ id ∈ ids, isFinite D id = true) →
      distribute D (fun id => twoPart stats (2 ^ 32 - 1) (pts id)) ids ps = none := by
    intro ids
    induction ids with
    | nil => rintro ps ⟨id, hid, _⟩; exact absurd hid (by simp)
    | cons a ids ih =>
      rintro ps ⟨id, hid, hf⟩
      rw [distribute]
      by_cases ha : isFinite D a = true
      · rw [if_neg (by simp [ha]), hpart]; rfl
      · rw [if_pos (by simp [ha])]
        rcases List.mem_cons.mp hid with rfl | hid
        · exact absurd hf ha
        · exact ih ps ⟨id, hid, hf⟩
  rw [this ids _ hne]
  rfl

/-- A concrete split: points 1, 2, 3 on a line and the two infinite points. -/
example : (cycle (D := 1) 1 ⟨![0], ![2], ![4]⟩ (fun i => ![if i = 1 then (0 : ℚ) else if i = 2 then 2 else 4])
      [3, 2 ^ 64 - 1, 1, 2] false).map (fun ps => ps.map fun p => p.points.card) = some [4, 3] ∧
    (cycle (D := 1) 1 ⟨![0], ![2], ![4]⟩ (fun i => ![if i = 1 then (0 : ℚ) else if i = 2 then 2 else 4])
      [3, 2 ^ 64 - 1, 1, 2] false).map (fun ps => ps.map fun p => decide (2 ∈ p.points)) = some [true, false] := by
  decide +kernel

/-! ### C43 -/

variable [IsStrictOrderedRing K]

/-- The result covers its points and the bounds of different parts have disjoint interiors. -/
def BoundsOk (D : Nat) (pts : Nat → Vec D K) (ps : List (Partition D K)) : Prop :=
  (∀ p ∈ ps, ∀ id ∈ p.points, id < 2 ^ 64 - 2 ^ D → ∀ d, p.bounds.low d ≤ pts id d ∧
    pts id d ≤ p.bounds.high d) ∧
  ∀ (i j : Nat) (p q : Partition D K), ps[i]? = some p → ps[j]? = some q → i ≠ j →
    ¬ ∃ x : Vec D K, ∀ d, (p.bounds.low d < x d ∧ x d < p.bounds.high d) ∧
      (q.bounds.low d < x d ∧ x d < q.bounds.high d)

/-- The box of the statistics contains the finite points. -/
def Covers (D : Nat) (pts : Nat → Vec D K) (ids : List Nat) (stats : Stats D K) : Prop :=
  ∀ id ∈ ids, id < 2 ^ 64 - 2 ^ D → ∀ d, stats.min d ≤ pts id d ∧ pts id d ≤ stats.max d

omit [IsStrictOrderedRing K] in
/-- Statistics computed without the infinite points cover the finite points, so C43 applies to them. -/
theorem Tight.covers {pts : Nat → Vec D K} {ids : List Nat} {stats : Stats D K}
    (h : Tight pts {i | i ∈ ids ∧ (isFinite D i = true ∨ true = false)} stats) : Covers D pts ids stats := by
  intro id hid hf d
  have hm : id ∈ {i | i ∈ ids ∧ (isFinite D i = true ∨ true = false)} :=
    ⟨hid, Or.inl (by rw [isFinite, cINF, decide_eq_true_eq]; exact hf)⟩
  exact ⟨(h d).1.2 ⟨id, hm, rfl⟩, (h d).2.1.2 ⟨id, hm, rfl⟩⟩

theorem and_one_shift (i d : Nat) : (i &&& (1 <<< d) ≠ 0) ↔ i.testBit d = true := by
  rw [Nat.one_shiftLeft, Nat.and_two_pow]
  cases h : i.testBit d <;> simp

omit [IsStrictOrderedRing K] in
/-- **C43 (d-way splitter).** -/
theorem C43_dWay (hD : D ≤ 64) (stats : Stats D K) (pts : Nat → Vec D K) (ids : List Nat) (ign : Bool)
    (hcov : Covers D pts ids stats) (ps : List (Partition D K)) (hps : dWay stats pts ids ign = some ps) :
    BoundsOk D pts ps := by
  obtain ⟨qs, h1, h2, h3⟩ := dWay_spec hD stats pts ids ign
  obtain rfl : qs = ps := by rw [hps] at h1; exact (Option.some.inj h1).symm
  have hlen : (dWayInit stats).length = 2 ^ D := by simp [dWayInit]
  constructor
  · intro p hp id hid hlt d
    obtain ⟨i, hi, rfl⟩ := List.getElem_of_mem hp
    obtain ⟨_, hb, hm⟩ := h3 i hi (by omega)
    rw [hm] at hid
    rcases hid with ⟨hin, _, rfl⟩ | ⟨_, h, _⟩
    · rw [hb]
      simp only [dWayInit, List.getElem_map, List.getElem_range, and_one_shift, dWayPart_testBit,
        decide_eq_true_eq]
      have hc := hcov id hin hlt d
      split
      case isTrue h => exact ⟨le_of_lt h, hc.2⟩
      case isFalse h => exact ⟨hc.1, not_lt.mp h⟩
    · simp only [cINF] at h; omega
  · intro i j p q hp hq hij
    obtain ⟨hi, rfl⟩ := List.getElem?_eq_some_iff.mp hp
    obtain ⟨hj, rfl⟩ := List.getElem?_eq_some_iff.mp hq
    rintro ⟨x, hx⟩
    -- the indices differ in some bit below D
    have hi2 : i < 2 ^ D := by omega
    have hj2 : j < 2 ^ D := by omega
    obtain ⟨b, hb⟩ : ∃ b, i.testBit b ≠ j.testBit b := by
      by_contra hcon
      push_neg at hcon
      exact hij (Nat.eq_of_testBit_eq hcon)
    have hbD : b < D := by
      by_contra hge
      have hpow : 2 ^ D ≤ 2 ^ b := Nat.pow_le_pow_right (by omega) (by omega)
      rw [Nat.testBit_lt_two_pow (by omega), Nat.testBit_lt_two_pow (by omega)] at hb
      exact hb rfl
    have hxb := hx ⟨b, hbD⟩
    rw [(h3 i hi (by omega)).2.1, (h3 j hj (by omega)).2.1] at hxb
    simp only [dWayInit, List.getElem_map, List.getElem_range, and_one_shift] at hxb
    cases e1 : i.testBit b <;> cases e2 : j.testBit b
    · exact hb (e1.trans e2.symm)
    · rw [if_neg (by simp [e1]), if_neg (by simp [e1]), if_pos (by simp [e2]), if_pos (by simp [e2])] at hxb
      exact absurd (hxb.1.2.trans hxb.2.1) (lt_irrefl _)
    · rw [if_pos (by simp [e1]), if_pos (by simp [e1]), if_neg (by simp [e2]), if_neg (by simp [e2])] at hxb
      exact absurd (hxb.2.2.trans hxb.1.1) (lt_irrefl _)
    · exact hb (e1.trans e2.symm)

omit [IsStrictOrderedRing K] in
theorem twoWay_bounds (hD : D ≤ 64) (stats : Stats D K) (k : Fin D) (pts : Nat → Vec D K) (ids : List Nat)
    (ign : Bool) (hcov : Covers D pts ids stats) (ps : List (Partition D K))
    (hps : twoWay stats k pts ids ign = some ps) : BoundsOk D pts ps := by
  obtain ⟨qs, h1, h2, h3⟩ := twoWay_spec hD stats k pts ids ign
  obtain rfl : qs = ps := by rw [hps] at h1; exact (Option.some.inj h1).symm
  have hlen : qs.length = 2 := h2.trans rfl
  have b0 : qs[0].bounds.low = (fun d => stats.min d) ∧
      qs[0].bounds.high = fun d : Fin D => if d.val = k.val then stats.mid d else stats.max d := by
    rw [(h3 0 (by omega) (by simp [twoInit])).2.1]; exact ⟨rfl, rfl⟩
  have b1 : qs[1].bounds.low = (fun d : Fin D => if d.val = k.val then stats.mid d else stats.min d) ∧
      qs[1].bounds.high = fun d => stats.max d := by
    rw [(h3 1 (by omega) (by simp [twoInit])).2.1]; exact ⟨rfl, rfl⟩
  constructor
  · intro p hp id hid hlt d
    obtain ⟨i, hi, rfl⟩ := List.getElem_of_mem hp
    have hm := (h3 i hi (by omega)).2.2
    rw [hm] at hid
    rcases hid with ⟨hin, _, hs⟩ | ⟨_, h, _⟩
    · have hc := hcov id hin hlt d
      have hi2 : i = 0 ∨ i = 1 := by omega
      rcases hi2 with rfl | rfl
      · rw [b0.1, b0.2]
        simp only [side] at hs
        refine ⟨hc.1, ?_⟩
        simp only
        split
        case isTrue hd =>
          have : d = k := Fin.ext hd
          subst this
          by_contra hgt
          rw [if_pos (not_le.mp hgt)] at hs
          exact absurd hs (by omega)
        case isFalse hd => exact hc.2
      · rw [b1.1, b1.2]
        simp only [side] at hs
        refine ⟨?_, hc.2⟩
        simp only
        split
        case isTrue hd =>
          have : d = k := Fin.ext hd
          subst this
          by_contra hgt
          rw [if_neg (by
            intro h
            exact hgt (le_of_lt h))] at hs
          exact absurd hs (by omega)
        case isFalse hd => exact hc.1
    · simp only [cINF] at h; omega
  · intro i j p q hp hq hij
    obtain ⟨hi, rfl⟩ := List.getElem?_eq_some_iff.mp hp
    obtain ⟨hj, rfl⟩ := List.getElem?_eq_some_iff.mp hq
    rintro ⟨x, hx⟩
    have hxk := hx k
    have : (i = 0 ∧ j = 1) ∨ (i = 1 ∧ j = 0) := by omega
    rcases this with ⟨rfl, rfl⟩ | ⟨rfl, rfl⟩
    · rw [b0.1, b0.2, b1.1, b1.2] at hxk
      simp only [if_true] at hxk
      exact absurd (hxk.1.2.trans hxk.2.1) (lt_irrefl _)
    · rw [b0.1, b0.2, b1.1, b1.2] at hxk
      simp only [if_true] at hxk
      exact absurd (hxk.2.2.trans hxk.1.1) (lt_irrefl _)

omit [IsStrictOrderedRing K] in
/-- **C43 (one-dimensional splitter).** -/
theorem C43_oneDim (hD : D ≤ 64) (k : Nat) (hk : k < D) (stats : Stats D K) (pts : Nat → Vec D K)
    (ids : List Nat) (ign : Bool) (hcov : Covers D pts ids stats) (ps : List (Partition D K))
    (hps : oneDim k stats pts ids ign = some ps) : BoundsOk D pts ps :=
  twoWay_bounds hD stats ⟨k, hk⟩ pts ids ign hcov ps hps

omit [IsStrictOrderedRing K] in
/-- **C43 (cycle splitter).** -/
theorem C43_cycle (hD : D ≤ 64) (h0 : 0 < D) (provenanceSize : Nat) (stats : Stats D K)
    (pts : Nat → Vec D K) (ids : List Nat) (ign : Bool) (hcov : Covers D pts ids stats)
    (ps : List (Partition D K)) (hps : cycle provenanceSize stats pts ids ign = some ps) :
    BoundsOk D pts ps :=
  twoWay_bounds hD stats ⟨cycleDim D provenanceSize, Nat.mod_lt _ h0⟩ pts ids ign hcov ps hps

omit [IsStrictOrderedRing K] in
/-- **C43 (extend splitter).** -/
theorem C43_extend (hD : D ≤ 64) (stats : Stats D K) (pts : Nat → Vec D K) (ids : List Nat) (ign : Bool)
    (hext : ∃ d, stats.min d < stats.max d) (hcov : Covers D pts ids stats)
    (ps : List (Partition D K)) (hps : extend stats pts ids ign = some ps)
    [IsStrictOrderedRing K] : BoundsOk D pts ps := by
  obtain ⟨d, hd⟩ := hext
  obtain ⟨k, hk⟩ := extendLoop_pos stats (List.finRange D) 0 ⟨d, List.mem_finRange d, by linarith⟩
  have : extendDim stats = k.val := by rw [extendDim, hk]
  rw [extend, this] at hps
  exact twoWay_bounds hD stats k pts ids ign hcov ps hps

/-- Hypotheses of C43 and C44 for three points on a line, all of them used, and both parts non-empty. -/
example : Covers 1 (fun i => ![(i : ℚ)]) [1, 2, 5] ⟨![1], ![3], ![5]⟩ ∧
    ((extend (D := 1) ⟨![1], ![3], ![5]⟩ (fun i => ![(i : ℚ)]) [1, 2, 5] true).map
      fun ps => ps.map fun p => (p.points, p.bounds.low 0, p.bounds.high 0)) =
      some [({1, 2}, 1, 3), ({5}, 3, 5)] := by
  refine ⟨?_, by decide +kernel⟩
  intro id hid _ d
  fin_cases d
  simp only [List.mem_cons, List.not_mem_nil, or_false] at hid
  rcases hid with rfl | rfl | rfl <;> norm_num

/-! ### C44 -/

/-- No finite point of one part is in the convex hull of the finite points of another part. -/
def Separable (D : Nat) (pts : Nat → Vec D K) (ps : List (Partition D K)) : Prop :=
  ∀ (i j : Nat) (p q : Partition D K), ps[i]? = some p → ps[j]? = some q → i ≠ j →
    ∀ id ∈ p.points, id < 2 ^ 64 - 2 ^ D →
      pts id ∉ convexHull K (pts '' {x | x ∈ q.points ∧ x < 2 ^ 64 - 2 ^ D})

theorem convex_le (k : Fin D) (c : K) : Convex K {x : Vec D K | x k ≤ c} := by
  intro x hx y hy a b ha hb hab
  simp only [Set.mem_setOf_eq, Pi.add_apply, Pi.smul_apply, smul_eq_mul] at *
  calc a * x k + b * y k ≤ a * c + b * c :=
        add_le_add (mul_le_mul_of_nonneg_left hx ha) (mul_le_mul_of_nonneg_left hy hb)
    _ = c := by rw [← add_mul, hab, one_mul]

theorem convex_gt (k : Fin D) (c : K) : Convex K {x : Vec D K | c < x k} := by
  intro x hx y hy a b ha hb hab
  simp only [Set.mem_setOf_eq, Pi.add_apply, Pi.smul_apply, smul_eq_mul] at *
  have e : c = a * c + b * c := by rw [← add_mul, hab, one_mul]
  rw [e]
  rcases ha.lt_or_eq with ha | ha
  · exact add_lt_add_of_lt_of_le (mul_lt_mul_of_pos_left hx ha) (mul_le_mul_of_nonneg_left hy.le hb)
  · have hb1 : b = 1 := by linarith
    rw [← ha, hb1]
    simpa using hy

theorem separable_of_coord {pts : Nat → Vec D K} {stats : Stats D K} {k : Fin D}
    {A B : Set Nat} (hA : ∀ a ∈ A, pts a k ≤ stats.mid k) (hB : ∀ b ∈ B, stats.mid k < pts b k) :
    (∀ a ∈ A, pts a ∉ convexHull K (pts '' B)) ∧ ∀ b ∈ B, pts b ∉ convexHull K (pts '' A) := by
  constructor
  · intro a ha hin
    have : convexHull K (pts '' B) ⊆ {x : Vec D K | stats.mid k < x k} :=
      convexHull_min (by rintro _ ⟨b, hb, rfl⟩; exact hB b hb) (convex_gt k _)
    exact absurd (this hin) (not_lt.mpr (hA a ha))
  · intro b hb hin
    have : convexHull K (pts '' A) ⊆ {x : Vec D K | x k ≤ stats.mid k} :=
      convexHull_min (by rintro _ ⟨a, ha, rfl⟩; exact hA a ha) (convex_le k _)
    exact absurd (hB b hb) (not_lt.mpr (this hin))

/-- **C44 (d-way splitter).** -/
theorem C44_dWay (hD : D ≤ 64) (stats : Stats D K) (pts : Nat → Vec D K) (ids : List Nat) (ign : Bool)
    (ps : List (Partition D K)) (hps : dWay stats pts ids ign = some ps) : Separable D pts ps := by
  obtain ⟨qs, h1, h2, h3⟩ := dWay_spec hD stats pts ids ign
  obtain rfl : qs = ps := by rw [hps] at h1; exact (Option.some.inj h1).symm
  have hlen : (dWayInit stats).length = 2 ^ D := by simp [dWayInit]
  intro i j p q hp hq hij id hid hlt
  obtain ⟨hi, rfl⟩ := List.getElem?_eq_some_iff.mp hp
  obtain ⟨hj, rfl⟩ := List.getElem?_eq_some_iff.mp hq
  obtain ⟨b, hb⟩ : ∃ b, i.testBit b ≠ j.testBit b := by
    by_contra hcon
    push_neg at hcon
    exact hij (Nat.eq_of_testBit_eq hcon)
  have hbD : b < D := by
    by_contra hge
    have hpow : 2 ^ D ≤ 2 ^ b := Nat.pow_le_pow_right (by omega) (by omega)
    rw [Nat.testBit_lt_two_pow (by omega), Nat.testBit_lt_two_pow (by omega)] at hb
    exact hb rfl
  have hpart : ∀ (l : Nat) (hl : l < qs.length), ∀ x ∈ qs[l].points, x < 2 ^ 64 - 2 ^ D →
      (l.testBit b = decide (stats.mid ⟨b, hbD⟩ < pts x ⟨b, hbD⟩)) := by
    intro l hl x hx hxf
    rw [(h3 l hl (by omega)).2.2] at hx
    rcases hx with ⟨_, _, rfl⟩ | ⟨_, h, _⟩
    · exact dWayPart_testBit stats (pts x) ⟨b, hbD⟩
    · simp only [cINF] at h; omega
  cases e1 : i.testBit b
  · have e2 : j.testBit b = true := by
      cases h : j.testBit b
      · exact absurd (e1.trans h.symm) hb
      · rfl
    refine (separable_of_coord (stats := stats) (k := ⟨b, hbD⟩)
      (A := {x | x ∈ qs[i].points ∧ x < 2 ^ 64 - 2 ^ D}) ?_ ?_).1 id ⟨hid, hlt⟩
    · rintro a ⟨ha, haf⟩
      have := hpart i hi a ha haf
      rw [e1] at this
      exact not_lt.mp (of_decide_eq_false this.symm)
    · rintro a ⟨ha, haf⟩
      have := hpart j hj a ha haf
      rw [e2] at this
      exact of_decide_eq_true this.symm
  · have e2 : j.testBit b = false := by
      cases h : j.testBit b
      · rfl
      · exact absurd (e1.trans h.symm) hb
    refine (separable_of_coord (stats := stats) (k := ⟨b, hbD⟩)
      (B := {x | x ∈ qs[i].points ∧ x < 2 ^ 64 - 2 ^ D}) ?_ ?_).2 id ⟨hid, hlt⟩
    · rintro a ⟨ha, haf⟩
      have := hpart j hj a ha haf
      rw [e2] at this
      exact not_lt.mp (of_decide_eq_false this.symm)
    · rintro a ⟨ha, haf⟩
      have := hpart i hi a ha haf
      rw [e1] at this
      exact of_decide_eq_true this.symm

theorem twoWay_separable (hD : D ≤ 64) (stats : Stats D K) (k : Fin D) (pts : Nat → Vec D K)
    (ids : List Nat) (ign : Bool) (ps : List (Partition D K))
    (hps : twoWay stats k pts ids ign = some ps) : Separable D pts ps := by
  obtain ⟨qs, h1, h2, h3⟩ := twoWay_spec hD stats k pts ids ign
  obtain rfl : qs = ps := by rw [hps] at h1; exact (Option.some.inj h1).symm
  have hlen : qs.length = 2 := h2.trans rfl
  have h0 : ∀ a ∈ {x | x ∈ qs[0].points ∧ x < 2 ^ 64 - 2 ^ D}, pts a k ≤ stats.mid k := by
    rintro a ⟨ha, haf⟩
    rw [(h3 0 (by omega) (by simp [twoInit])).2.2] at ha
    rcases ha with ⟨_, _, hs⟩ | ⟨_, h, _⟩
    · by_contra hgt
      rw [side, if_pos (not_le.mp hgt)] at hs
      exact absurd hs (by omega)
    · simp only [cINF] at h; omega
  have h1' : ∀ a ∈ {x | x ∈ qs[1].points ∧ x < 2 ^ 64 - 2 ^ D}, stats.mid k < pts a k := by
    rintro a ⟨ha, haf⟩
    rw [(h3 1 (by omega) (by simp [twoInit])).2.2] at ha
    rcases ha with ⟨_, _, hs⟩ | ⟨_, h, _⟩
    · by_contra hgt
      rw [side, if_neg hgt] at hs
      exact absurd hs (by omega)
    · simp only [cINF] at h; omega
  have hsep := separable_of_coord (stats := stats) (k := k) h0 h1'
  intro i j p q hp hq hij id hid hlt
  obtain ⟨hi, rfl⟩ := List.getElem?_eq_some_iff.mp hp
  obtain ⟨hj, rfl⟩ := List.getElem?_eq_some_iff.mp hq
  have : (i = 0 ∧ j = 1) ∨ (i = 1 ∧ j = 0) := by omega
  rcases this with ⟨rfl, rfl⟩ | ⟨rfl, rfl⟩
  · exact hsep.1 id ⟨hid, hlt⟩
  · exact hsep.2 id ⟨hid, hlt⟩

/-- **C44 (one-dimensional splitter).** -/
theorem C44_oneDim (hD : D ≤ 64) (k : Nat) (hk : k < D) (stats : Stats D K) (pts : Nat → Vec D K)
    (ids : List Nat) (ign : Bool) (ps : List (Partition D K))
    (hps : oneDim k stats pts ids ign = some ps) : Separable D pts ps :=
  twoWay_separable hD stats ⟨k, hk⟩ pts ids ign ps hps

/-- **C44 (cycle splitter).** -/
theorem C44_cycle (hD : D ≤ 64) (h0 : 0 < D) (provenanceSize : Nat) (stats : Stats D K)
    (pts : Nat → Vec D K) (ids : List Nat) (ign : Bool)
    (ps : List (Partition D K)) (hps : cycle provenanceSize stats pts ids ign = some ps) :
    Separable D pts ps :=
  twoWay_separable hD stats ⟨cycleDim D provenanceSize, Nat.mod_lt _ h0⟩ pts ids ign ps hps

/-- **C44 (extend splitter).** -/
theorem C44_extend (hD : D ≤ 64) (stats : Stats D K) (pts : Nat → Vec D K) (ids : List Nat) (ign : Bool)
    (hext : ∃ d, stats.min d < stats.max d)
    (ps : List (Partition D K)) (hps : extend stats pts ids ign = some ps) : Separable D pts ps := by
  obtain ⟨d, hd⟩ := hext
  obtain ⟨k, hk⟩ := extendLoop_pos stats (List.finRange D) 0 ⟨d, List.mem_finRange d, by linarith⟩
  have : extendDim stats = k.val := by rw [extendDim, hk]
  rw [extend, this] at hps
  exact twoWay_separable hD stats k pts ids ign ps hps

/-! ### C45 -/

omit [Field K] [LinearOrder K] [IsStrictOrderedRing K] in
/-- **C45.** `Partitioning::partition(p)` returns the id of the first part that contains `p` and throws
exactly if there is none. -/
theorem C45_partition (ps : List (Partition D K)) (i : Nat) :
    (∀ r, partitionOf ps i = some r ↔ ∃ l p m, ps = l ++ p :: m ∧ i ∈ p.points ∧ p.id = r ∧
      ∀ q ∈ l, i ∉ q.points) ∧
    (partitionOf ps i = none ↔ ∀ p ∈ ps, i ∉ p.points) := by
  induction ps with
  | nil => simp [partitionOf]
  | cons a ps ih =>
    rw [partitionOf]
    by_cases h : i ∈ a.points
    · rw [if_pos (by simp [Partition.contains, h])]
      refine ⟨fun r => ⟨?_, ?_⟩, ?_⟩
      · intro hr
        exact ⟨[], a, ps, rfl, h, Option.some.inj hr, by simp⟩
      · rintro ⟨l, p, m, he, hp, hid, hl⟩
        cases l with
        | nil =>
          simp only [List.nil_append, List.cons.injEq] at he
          rw [he.1, hid]
        | cons b l =>
          simp only [List.cons_append, List.cons.injEq] at he
          exact absurd (he.1 ▸ h) (hl b (by simp))
      · simp only [reduceCtorEq, false_iff, not_forall]
        exact ⟨a, by simp, fun hn => hn h⟩
    · rw [if_neg (by simp [Partition.contains, h])]
      refine ⟨fun r => ?_, ?_⟩
      · rw [ih.1 r]
        constructor
        · rintro ⟨l, p, m, rfl, hp, hid, hl⟩
          refine ⟨a :: l, p, m, rfl, hp, hid, ?_⟩
          intro q hq
          rcases List.mem_cons.mp hq with rfl | hq
          · exact h
          · exact hl q hq
        · rintro ⟨l, p, m, he, hp, hid, hl⟩
          cases l with
          | nil =>
            simp only [List.nil_append, List.cons.injEq] at he
            exact absurd hp (he.1 ▸ h)
          | cons b l =>
            simp only [List.cons_append, List.cons.injEq] at he
            exact ⟨l, p, m, he.2, hp, hid, fun q hq => hl q (by simp [hq])⟩
      · rw [ih.2]
        simp [h]

omit [Field K] [LinearOrder K] [IsStrictOrderedRing K] in
/-- **C45.** `Partition::contains(simplex, partially)` is "all vertices" or "some vertex". -/
theorem C45_contains (p : Partition D K) (vs : List Nat) :
    (p.containsVs false vs = true ↔ ∀ v ∈ vs, v ∈ p.points) ∧
    (p.containsVs true vs = true ↔ ∃ v ∈ vs, v ∈ p.points) := by
  induction vs with
  | nil => simp [Partition.containsVs]
  | cons a vs ih =>
    simp only [Partition.containsVs, Partition.contains]
    by_cases h : a ∈ p.points
    · simp [h, ih.1]
    · simp [h, ih.2]

example : partitionOf [⟨0, {1, 2}, ⟨![0], ![1]⟩⟩, ⟨1, {2, 3}, ⟨![1], ![2]⟩⟩] 2 = some 0 ∧
    partitionOf ([⟨0, {1, 2}, ⟨![0], ![1]⟩⟩, ⟨1, {2, 3}, ⟨![1], ![2]⟩⟩] : List (Partition 1 ℚ)) 4 = none := by
  decide

end Part
end Verif
