import Verif.Model.DCTri
import Verif.Spec.Euclid
import Verif.Props.Box
import Verif.Props.Partitioner
import Verif.Props.DivideConquer

/-!
# The splitters fulfil what the divide-and-conquer triangulator needs
-/
namespace Verif
namespace Part
open Del Euc DC
variable {D : Nat} {K : Type} [Field K] [LinearOrder K] [IsStrictOrderedRing K]

theorem extendLoop_extent (stats : Stats D K) : ∀ (l : List (Fin D)) (e : K) (m : Option (Fin D)) (d : Fin D),
    extendLoop stats l e m = some d → m = some d ∨ e < stats.max d - stats.min d := by
  intro l
  induction l with
  | nil => intro e m d h; exact Or.inl h
  | cons a l ih =>
    intro e m d h
    rw [extendLoop] at h
    split at h
    · rename_i hgt
      rcases ih _ _ _ h with h1 | h1
      · obtain rfl := Option.some.inj h1
        exact Or.inr hgt
      · exact Or.inr (lt_trans hgt h1)
    · exact ih _ _ _ h

/-- The finite points of `S` are not in a hyperplane orthogonal to the dimension in which the splitter
splits, or, if the splitter selects the dimension itself, not all at the same place. -/
def Splitter.Spread (sp : Splitter) (pts : Nat → Vec D K) (len : Nat) (S : Finset Nat) : Prop :=
  ∃ i ∈ S, ∃ j ∈ S, i < 2 ^ 64 - 2 ^ D ∧ j < 2 ^ 64 - 2 ^ D ∧
    match sp with
    | .dWay => pts i ≠ pts j
    | .oneDim k => ∃ h : k < D, pts i ⟨k, h⟩ ≠ pts j ⟨k, h⟩
    | .cycle => ∃ h : cycleDim D len < D, pts i ⟨cycleDim D len, h⟩ ≠ pts j ⟨cycleDim D len, h⟩
    | .extend => pts i ≠ pts j

section
variable {stats : Stats D K} {pts : Nat → Vec D K} {ids : List Nat} {S : Finset Nat}

omit [IsStrictOrderedRing K] in
theorem isFinite_iff' {i : Nat} : isFinite D i = true ↔ i < 2 ^ 64 - 2 ^ D := by
  rw [isFinite, cINF, decide_eq_true_eq]

/-- Points on both sides of the middle. -/
theorem Tight.sides (ht : Tight pts {i | i ∈ ids ∧ isFinite D i = true} stats) (k : Fin D)
    (hne : stats.min k < stats.max k) :
    (∃ i ∈ ids, isFinite D i = true ∧ pts i k > stats.mid k) ∧
      ∃ i ∈ ids, isFinite D i = true ∧ ¬ pts i k > stats.mid k := by
  obtain ⟨⟨⟨a, ⟨ha, haf⟩, hae⟩, _⟩, ⟨⟨b, ⟨hb, hbf⟩, hbe⟩, _⟩, hm⟩ := ht k
  refine ⟨⟨b, hb, hbf, ?_⟩, a, ha, haf, ?_⟩
  · rw [hm, ← hbe, gt_iff_lt, div_lt_iff₀ two_pos]; linarith
  · rw [hm, ← hae, gt_iff_lt, not_lt, le_div_iff₀ two_pos]; linarith

omit [IsStrictOrderedRing K] in
theorem Tight.extent (ht : Tight pts {i | i ∈ ids ∧ isFinite D i = true} stats) (k : Fin D) {i j : Nat}
    (hi : i ∈ ids) (hif : isFinite D i = true) (hj : j ∈ ids) (hjf : isFinite D j = true)
    (hne : pts i k ≠ pts j k) : stats.min k < stats.max k := by
  obtain ⟨⟨_, h1⟩, ⟨_, h2⟩, _⟩ := ht k
  have a1 := h1 ⟨i, ⟨hi, hif⟩, rfl⟩
  have a2 := h2 ⟨i, ⟨hi, hif⟩, rfl⟩
  have b1 := h1 ⟨j, ⟨hj, hjf⟩, rfl⟩
  have b2 := h2 ⟨j, ⟨hj, hjf⟩, rfl⟩
  rcases lt_or_gt_of_ne hne with h | h
  · exact (a1.trans_lt h).trans_le b2
  · exact (b1.trans_lt h).trans_le a2

/-- Two non-empty parts. -/
def Two (D : Nat) (ps : List (Partition D K)) : Prop :=
  ∃ (j k : Nat) (p q : Partition D K), ps[j]? = some p ∧ ps[k]? = some q ∧ j ≠ k ∧
    (finPts p).Nonempty ∧ (finPts q).Nonempty

theorem twoWay_two (hD : D ≤ 64) (ht : Tight pts {i | i ∈ ids ∧ isFinite D i = true} stats) (k : Fin D)
    (hne : stats.min k < stats.max k) {ps : List (Partition D K)}
    (hps : twoWay stats k pts ids false = some ps) : Two D ps := by
  obtain ⟨qs, h1, h2, h3⟩ := twoWay_spec hD stats k pts ids false
  obtain rfl : qs = ps := by rw [hps] at h1; exact (Option.some.inj h1).symm
  have hlen : (twoInit stats k).length = 2 := rfl
  obtain ⟨⟨a, ha, haf, hgt⟩, b, hb, hbf, hle⟩ := ht.sides k hne
  refine ⟨1, 0, qs[1], qs[0], by rw [List.getElem?_eq_getElem (by omega)],
    by rw [List.getElem?_eq_getElem (by omega)], by omega, ⟨a, ?_⟩, ⟨b, ?_⟩⟩
  · rw [Finset.mem_filter]
    exact ⟨((h3 1 (by omega) (by omega)).2.2 a).mpr (Or.inl ⟨ha, haf, by simp [side, hgt]⟩), haf⟩
  · rw [Finset.mem_filter]
    exact ⟨((h3 0 (by omega) (by omega)).2.2 b).mpr (Or.inl ⟨hb, hbf, by simp [side, hle]⟩), hbf⟩

theorem dWay_two (hD : D ≤ 64) (ht : Tight pts {i | i ∈ ids ∧ isFinite D i = true} stats) (k : Fin D)
    (hne : stats.min k < stats.max k) {ps : List (Partition D K)}
    (hps : dWay stats pts ids false = some ps) : Two D ps := by
  obtain ⟨qs, h1, h2, h3⟩ := dWay_spec hD stats pts ids false
  obtain rfl : qs = ps := by rw [hps] at h1; exact (Option.some.inj h1).symm
  have hlen : (dWayInit stats).length = 2 ^ D := by simp [dWayInit]
  obtain ⟨⟨a, ha, haf, hgt⟩, b, hb, hbf, hle⟩ := ht.sides k hne
  have la := dWayPart_lt stats (pts a)
  have lb := dWayPart_lt stats (pts b)
  refine ⟨dWayPart stats (pts a), dWayPart stats (pts b), qs[dWayPart stats (pts a)], qs[dWayPart stats (pts b)],
    by rw [List.getElem?_eq_getElem (by omega)],
    by rw [List.getElem?_eq_getElem (by omega)], ?_, ⟨a, ?_⟩, ⟨b, ?_⟩⟩
  · intro he
    have := congrArg (fun n => n.testBit k) he
    simp only [dWayPart_testBit, hgt, hle] at this
    simp at this
  · rw [Finset.mem_filter]
    exact ⟨((h3 _ (by omega) (by omega)).2.2 a).mpr (Or.inl ⟨ha, haf, rfl⟩), haf⟩
  · rw [Finset.mem_filter]
    exact ⟨((h3 _ (by omega) (by omega)).2.2 b).mpr (Or.inl ⟨hb, hbf, rfl⟩), hbf⟩

/-- The facts about a splitter's result that C52 uses. -/
theorem Splitter.run_ok (hD : D ≤ 64) (sp : Splitter) (len : Nat)
    (ht : Tight pts {i | i ∈ ids ∧ isFinite D i = true} stats) (hS : ∀ i, i ∈ ids ↔ i ∈ S)
    (hsp : sp.Spread pts len S) {ps : List (Partition D K)}
    (hps : sp.run stats pts ids len false = some ps) :
    (∃ n, SplitsInto D n ids false ps) ∧ BoundsOk D pts ps ∧ Separable D pts ps ∧ Two D ps := by
  have hcov : Covers D pts ids stats := by
    apply Tight.covers
    have : {i | i ∈ ids ∧ (isFinite D i = true ∨ true = false)} = {i | i ∈ ids ∧ isFinite D i = true} := by
      ext i; simp
    rw [this]; exact ht
  obtain ⟨i, hi, j, hj, hif, hjf, hne⟩ := hsp
  rw [← hS] at hi hj
  rw [← isFinite_iff'] at hif hjf
  have hext : ∀ k : Fin D, pts i k ≠ pts j k → stats.min k < stats.max k := fun k h => ht.extent k hi hif hj hjf h
  have two : ∀ (k : Fin D), stats.min k < stats.max k → twoWay stats k pts ids false = some ps →
      (∃ n, SplitsInto D n ids false ps) ∧ BoundsOk D pts ps ∧ Separable D pts ps ∧ Two D ps := by
    intro k hk h
    obtain ⟨qs, h1, h2⟩ := twoWay_splits hD stats k pts ids false
    obtain rfl : qs = ps := by rw [h] at h1; exact (Option.some.inj h1).symm
    exact ⟨⟨2, h2⟩, twoWay_bounds hD stats k pts ids false hcov qs h, twoWay_separable hD stats k pts ids false qs h,
      twoWay_two hD ht k hk h⟩
  cases sp with
  | dWay =>
    obtain ⟨k, hk⟩ : ∃ k, pts i k ≠ pts j k := by
      by_contra h; push_neg at h; exact hne (funext h)
    obtain ⟨qs, h1, h2⟩ := C42_dWay hD stats pts ids false
    obtain rfl : qs = ps := by
      have : some ps = some qs := hps.symm.trans h1
      exact (Option.some.inj this).symm
    exact ⟨⟨_, h2⟩, C43_dWay hD stats pts ids false hcov qs hps, C44_dWay hD stats pts ids false qs hps,
      dWay_two hD ht k (hext k hk) hps⟩
  | oneDim k =>
    obtain ⟨hk, hne⟩ := hne
    exact two ⟨k, hk⟩ (hext _ hne) hps
  | cycle =>
    obtain ⟨hk, hne⟩ := hne
    exact two ⟨_, hk⟩ (hext _ hne) hps
  | extend =>
    obtain ⟨d, hd⟩ : ∃ k, pts i k ≠ pts j k := by
      by_contra h; push_neg at h; exact hne (funext h)
    obtain ⟨k, hk⟩ := extendLoop_pos stats (List.finRange D) 0 ⟨d, List.mem_finRange d, by have := hext d hd; linarith⟩
    have hpos := (extendLoop_extent stats _ _ _ _ hk).resolve_left (by simp)
    have he : extendDim stats = k.val := by rw [extendDim, hk]
    have hps' : Part.extend stats pts ids false = some ps := hps
    rw [Part.extend, he] at hps'
    exact two k (by linarith) hps'

/-- The splitter yields a result for all inputs with spread. -/
theorem Splitter.run_exists (hD : D ≤ 64) (sp : Splitter) (len : Nat)
    (ht : Tight pts {i | i ∈ ids ∧ isFinite D i = true} stats) (hS : ∀ i, i ∈ ids ↔ i ∈ S)
    (hsp : sp.Spread pts len S) : ∃ ps, sp.run stats pts ids len false = some ps := by
  obtain ⟨i, hi, j, hj, hif, hjf, hne⟩ := hsp
  rw [← hS] at hi hj
  rw [← isFinite_iff'] at hif hjf
  have hext : ∀ k : Fin D, pts i k ≠ pts j k → stats.min k < stats.max k := fun k h => ht.extent k hi hif hj hjf h
  cases sp with
  | dWay => exact (C42_dWay hD stats pts ids false).imp fun _ h => h.1
  | oneDim k => exact (C42_oneDim hD k hne.1 stats pts ids false).imp fun _ h => h.1
  | cycle => exact (twoWay_splits hD stats ⟨_, hne.1⟩ pts ids false).imp fun _ h => h.1
  | extend =>
    obtain ⟨d, hd⟩ : ∃ k, pts i k ≠ pts j k := by
      by_contra h; push_neg at h; exact hne (funext h)
    exact (C42_extend_partial hD stats pts ids false ⟨d, by have := hext d hd; linarith⟩).imp fun _ h => h.1

theorem Parts.tight {big tiny : K} {ids : List Nat} {work : List (List Nat)} {S : Finset Nat}
    (hS : ∀ i, i ∈ ids ↔ i ∈ S) (hw : work.flatten.Perm ids) (hne : ∃ i ∈ S, i < 2 ^ 64 - 2 ^ D)
    (hbig : ∀ i ∈ S, ∀ d, pts i d ≤ big)
    (htiny : ∀ d, ∃ i ∈ S, i < 2 ^ 64 - 2 ^ D ∧ tiny ≤ pts i d) :
    Tight pts {i | i ∈ ids ∧ isFinite D i = true} (getPointStats big tiny pts work true) := by
  have := C41_parallel_partial big tiny pts ids work hw true
    (by obtain ⟨i, h1, h2⟩ := hne; exact ⟨i, (hS i).mpr h1, Or.inl (isFinite_iff'.mpr h2)⟩)
    (fun i hi => hbig i ((hS i).mp hi))
    (fun d => by
      obtain ⟨i, h1, h2, h3⟩ := htiny d
      exact ⟨i, (hS i).mpr h1, Or.inl (isFinite_iff'.mpr h2), h3⟩)
  simpa using this

end

/-- C42, C43 and C44 for the result of `partition(ids, points, provenance)`, in the form that C52 needs. -/
theorem Splitter.Parts.ok (hD : D ≤ 64) {sp : Splitter} {big tiny : K} {pts : Nat → Vec D K} {len : Nat}
    {S : Finset Nat} {ps : List (Partition D K)} (h : sp.Parts big tiny pts len S ps)
    (hsp : sp.Spread pts len S) (hbig : ∀ i ∈ S, ∀ d, pts i d ≤ big)
    (htiny : ∀ d, ∃ i ∈ S, i < 2 ^ 64 - 2 ^ D ∧ tiny ≤ pts i d) :
    SplitOk (K := K) (fun i => hom (pts i)) S ps ∧ BoundsOk D pts ps := by
  obtain ⟨ids, work, _, hS, hw, hrun⟩ := h
  have ht := Parts.tight (D := D) hS hw (by obtain ⟨i, hi, _, _, hf, _⟩ := hsp; exact ⟨i, hi, hf⟩) hbig htiny
  obtain ⟨⟨n, h1⟩, h2, h3, h4⟩ := sp.run_ok hD len ht hS hsp hrun
  refine ⟨⟨⟨n, ids, hS, h1⟩, ?_, h4⟩, h2⟩
  intro j k p q hp hq hjk i hi hc
  obtain ⟨hi1, hi2⟩ := Finset.mem_filter.mp hi
  rw [inCone_iff] at hc
  refine h3 k j q p hq hp (Ne.symm hjk) i hi1 (isFinite_iff'.mp hi2) ?_
  have : pts '' ((finPts p : Finset Nat) : Set Nat) = pts '' {x | x ∈ p.points ∧ x < 2 ^ 64 - 2 ^ D} := by
    congr 1
    ext x
    simp [isFinite_iff']
  rw [← this]
  exact hc

/-- The splitter yields a result. -/
theorem Splitter.Parts.exists (hD : D ≤ 64) {sp : Splitter} {big tiny : K} {pts : Nat → Vec D K} {len : Nat}
    {S : Finset Nat} (hsp : sp.Spread pts len S) (hbig : ∀ i ∈ S, ∀ d, pts i d ≤ big)
    (htiny : ∀ d, ∃ i ∈ S, i < 2 ^ 64 - 2 ^ D ∧ tiny ≤ pts i d) : ∃ ps, sp.Parts big tiny pts len S ps := by
  have hS : ∀ i, i ∈ S.toList ↔ i ∈ S := fun i => Finset.mem_toList
  have hw : ([S.toList] : List (List Nat)).flatten.Perm S.toList := by simp
  have ht := Parts.tight (D := D) hS hw (by obtain ⟨i, hi, _, _, hf, _⟩ := hsp; exact ⟨i, hi, hf⟩) hbig htiny
  obtain ⟨ps, hps⟩ := sp.run_exists hD len ht hS hsp
  exact ⟨ps, S.toList, [S.toList], Finset.nodup_toList S, hS, hw, hps⟩

end Part
end Verif
