import Verif.Props.Delaunay
import Verif.Props.Misc
import Mathlib.Logic.Relation
import Mathlib.Data.Real.Sqrt

/-!
# C54: the infinite points of the constructor; C53: depth of the recursion; C52 for constructed triangulators
-/
namespace Verif
namespace DC
open Del Euc

variable {K : Type} [Field K] [LinearOrder K] [IsStrictOrderedRing K]
variable {D : Nat} {pts : Nat → Vec D K} {h : Nat → K} {S S₀ : Finset Nat} {T : Tri}

/-! ### Corners of a box -/

theorem exists_inf (hD : D ≤ 64) {i : Nat} (hi : i ∈ infPts D) : ∃ k < 2 ^ D, i = Part.cINF D + k := by
  rw [infPts, List.mem_toFinset, Part.infIds, List.mem_range'] at hi
  obtain ⟨k, hk, rfl⟩ := hi
  exact ⟨k, hk, by omega⟩

theorem inf_mem (hD : D ≤ 64) {k : Nat} (hk : k < 2 ^ D) : Part.cINF D + k ∈ infPts D := by
  rw [infPts, List.mem_toFinset, Part.infIds, List.mem_range']
  exact ⟨k, hk, by omega⟩

theorem not_inf (hD : D ≤ 64) {i : Nat} (hi : i ∉ infPts D) (h64 : i < 2 ^ 64) : i < Part.cINF D := by
  rw [mem_infPts hD] at hi
  by_contra hn
  refine hi ⟨?_, h64⟩
  rw [← Bool.not_eq_true, Part.isFinite_iff']
  exact hn

/-- The infinite points are the corners of a box that contains the finite points. -/
theorem scene_of_box (h0 : 0 < D) (hD : D ≤ 64) {lo hi : Vec D K}
    (hinf : ∀ k < 2 ^ D, ∀ d : Fin D, pts (Part.cINF D + k) d = if k.testBit d then hi d else lo d)
    (hids : ∀ i ∈ S, i < 2 ^ 64) (hI : infPts D ⊆ S) (hlt : ∀ d, lo d < hi d)
    (hin : ∀ i ∈ S, i < Part.cINF D → ∀ d, lo d < pts i d ∧ pts i d < hi d)
    (hdist : Set.InjOn pts {i | i ∈ S ∧ i < Part.cINF D}) : Scene D pts S := by
  have hcases : ∀ i ∈ S, (∃ k < 2 ^ D, i = Part.cINF D + k) ∨ i < Part.cINF D := by
    intro i hiS
    by_cases hi : i ∈ infPts D
    · exact Or.inl (exists_inf hD hi)
    · exact Or.inr (not_inf hD hi (hids i hiS))
  have hcorner : ∀ q : Vec D K, (∀ d, q d = lo d ∨ q d = hi d) → q ∈ pts '' (infPts D : Set Nat) := by
    intro q hq
    classical
    refine ⟨Part.cINF D + Nat.ofBits (fun d : Fin D => decide (q d = hi d)),
      inf_mem hD (Nat.ofBits_lt_two_pow _), ?_⟩
    funext d
    rw [hinf _ (Nat.ofBits_lt_two_pow _), Nat.testBit_ofBits_lt _ _ d.isLt]
    by_cases he : q d = hi d
    · simp [he]
    · rw [(hq d).resolve_right he]
      simp only [← (hq d).resolve_right he, he, decide_false, Bool.false_eq_true, if_false]
  have hedge : ∀ i ∈ infPts D, ∀ d, pts i d = lo d ∨ pts i d = hi d := by
    intro i hi d
    obtain ⟨k, hk, rfl⟩ := exists_inf hD hi
    rw [hinf k hk]
    split <;> simp
  have hclosed : ∀ i ∈ S, ∀ d, lo d ≤ pts i d ∧ pts i d ≤ hi d := by
    intro i hiS d
    rcases hcases i hiS with ⟨k, hk, rfl⟩ | hf
    · rcases hedge _ (inf_mem hD hk) d with h | h <;> rw [h]
      · exact ⟨le_rfl, (hlt d).le⟩
      · exact ⟨(hlt d).le, le_rfl⟩
    · exact ⟨(hin i hiS hf d).1.le, (hin i hiS hf d).2.le⟩
  refine ⟨hids, hI, ?_, ?_, ?_, ?_⟩
  · intro i hiS j hjS he
    have hmix : ∀ k < 2 ^ D, ∀ j ∈ S, j < Part.cINF D → pts (Part.cINF D + k) ≠ pts j := by
      intro k hk j hj hf he
      have hd := hin j hj hf ⟨0, h0⟩
      have hkm := inf_mem hD hk
      rcases hedge _ hkm ⟨0, h0⟩ with h | h
      · rw [he] at h; exact absurd h hd.1.ne'
      · rw [he] at h; exact absurd h hd.2.ne
    rcases hcases i hiS with ⟨k, hk, rfl⟩ | hf
    · rcases hcases j hjS with ⟨l, hl, rfl⟩ | hg
      · congr 1
        apply Nat.eq_of_testBit_eq
        intro b
        by_cases hb : b < D
        · have := congrFun he ⟨b, hb⟩
          rw [hinf k hk, hinf l hl] at this
          have hne := (hlt ⟨b, hb⟩).ne
          simp only at this
          by_cases h1 : k.testBit b <;> by_cases h2 : l.testBit b <;> simp [h1, h2] at this ⊢
          · exact hne this.symm
          · exact hne this
        · rw [Nat.testBit_lt_two_pow (lt_of_lt_of_le hk (Nat.pow_le_pow_right (by omega) (not_lt.mp hb))),
            Nat.testBit_lt_two_pow (lt_of_lt_of_le hl (Nat.pow_le_pow_right (by omega) (not_lt.mp hb)))]
      · exact absurd he (hmix k hk j hjS hg)
    · rcases hcases j hjS with ⟨l, hl, rfl⟩ | hg
      · exact absurd he.symm (hmix l hl i hiS hf)
      · exact hdist ⟨hiS, hf⟩ ⟨hjS, hg⟩ he
  · intro i hiS
    have h1 : pts i ∈ convexHull K (Set.univ.pi fun d => ({lo d, hi d} : Set K)) := by
      refine mem_convexHull_pi fun d _ => ?_
      rw [convexHull_pair, segment_eq_Icc (hlt d).le]
      exact hclosed i hiS d
    refine convexHull_mono ?_ h1
    intro q hq
    exact hcorner q fun d => by simpa using hq d (Set.mem_univ d)
  · rw [eq_top_iff]
    intro p _
    have hlo := hcorner lo fun d => Or.inl rfl
    have hmem : p - lo ∈ vectorSpan K (pts '' (infPts D : Set Nat)) := by
      have e : p - lo = ∑ d, ((p d - lo d) / (hi d - lo d)) • (Function.update lo d (hi d) - lo) := by
        funext c
        rw [Finset.sum_apply, Finset.sum_eq_single c]
        · have := sub_ne_zero.mpr (hlt c).ne'
          simp [this]
        · intro d _ hne
          simp [Function.update_of_ne (Ne.symm hne)]
        · intro hn; exact absurd (Finset.mem_univ c) hn
      rw [e]
      refine Submodule.sum_mem _ fun d _ => Submodule.smul_mem _ _ ?_
      refine vsub_mem_vectorSpan K (hcorner _ fun c => ?_) hlo
      by_cases hc : c = d
      · subst hc; simp
      · simp [Function.update_of_ne hc]
    have := AffineSubspace.vadd_mem_of_mem_direction (s := affineSpan K (pts '' (infPts D : Set Nat)))
      (by rw [direction_affineSpan]; exact hmem) (mem_affineSpan K hlo)
    simpa using this
  · intro s hs hsimp c ρ hc p hp hpI
    let m : Vec D K := fun d => (lo d + hi d) / 2
    let ρ0 : K := ∑ d, ((hi d - lo d) / 2) * ((hi d - lo d) / 2)
    have hm : ∀ v ∈ s, dist2 (pts v) m = ρ0 := by
      intro v hv
      refine Finset.sum_congr rfl fun d _ => ?_
      rcases hedge v (hs hv) d with h | h <;> rw [h] <;> simp only [m] <;> ring
    have he := Interp.unique (isSimp_iff.mpr hsimp) (interp_ball.mpr hc) (interp_ball.mpr hm)
    have he' := congrArg (fun f => f (hom (pts p))) he
    simp only [ball_hom] at he'
    have hlt' : dist2 (pts p) m < ρ0 := by
      have hin' := hin p hp (not_inf hD hpI (hids p hp))
      refine Finset.sum_lt_sum_of_nonempty ⟨⟨0, h0⟩, Finset.mem_univ _⟩ fun d _ => ?_
      obtain ⟨h1, h2⟩ := hin' d
      have : 0 < (pts p d - lo d) * (hi d - pts p d) := mul_pos (sub_pos.mpr h1) (sub_pos.mpr h2)
      simp only [m]
      linarith [show ((hi d - lo d) / 2) * ((hi d - lo d) / 2) - (pts p d - (lo d + hi d) / 2) * (pts p d - (lo d + hi d) / 2)
        = (pts p d - lo d) * (hi d - pts p d) by ring]
    linarith

/-! ### The constructor -/

theorem cINF_or (hD : D ≤ 64) {k : Nat} (hk : k < 2 ^ D) : Part.cINF D ||| k = Part.cINF D + k := by
  have e : Part.cINF D = 2 ^ D * (2 ^ (64 - D) - 1) := by
    rw [Part.cINF, Nat.mul_sub, ← pow_add, mul_one]
    congr 2
    omega
  rw [e, Nat.two_pow_add_eq_or_of_lt hk]

section ctor
variable {safety big tiny : K} {work : List (List Nat)}

theorem ctor_foldl (f : Nat → Vec D K) : ∀ (l : List Nat), l.Nodup → (∀ k ∈ l, k < 2 ^ D) → D ≤ 64 →
    ∀ ps : Nat → Vec D K,
    (∀ i < Part.cINF D, l.foldl (fun ps i => Function.update ps (Part.cINF D ||| i) (f i)) ps i = ps i) ∧
    (∀ k ∈ l, l.foldl (fun ps i => Function.update ps (Part.cINF D ||| i) (f i)) ps (Part.cINF D + k) = f k) ∧
    (∀ k < 2 ^ D, k ∉ l →
      l.foldl (fun ps i => Function.update ps (Part.cINF D ||| i) (f i)) ps (Part.cINF D + k) = ps (Part.cINF D + k)) := by
  intro l
  induction l with
  | nil => intro _ _ _ ps; exact ⟨fun _ _ => rfl, fun k hk => by simp at hk, fun _ _ _ => rfl⟩
  | cons a l ih =>
    intro hnd hlt hD ps
    obtain ⟨ha, hnd⟩ := List.nodup_cons.mp hnd
    have ha2 := hlt a List.mem_cons_self
    obtain ⟨h1, h2, h3⟩ := ih hnd (fun k hk => hlt k (List.mem_cons_of_mem _ hk)) hD
      (Function.update ps (Part.cINF D ||| a) (f a))
    simp only [List.foldl_cons]
    refine ⟨fun i hi => ?_, fun k hk => ?_, fun k hk hkl => ?_⟩
    · rw [h1 i hi, cINF_or hD ha2, Function.update_of_ne (by omega)]
    · rcases List.mem_cons.mp hk with rfl | hk
      · rw [h3 k ha2 ha, cINF_or hD ha2, Function.update_self]
      · exact h2 k hk
    · rw [List.mem_cons, not_or] at hkl
      rw [h3 k hk hkl.2, cINF_or hD ha2, Function.update_of_ne (by omega)]

theorem ctor_finite (hD : D ≤ 64) {i : Nat} (hi : i < Part.cINF D) :
    ctorPoints safety big tiny pts work i = pts i :=
  (ctor_foldl _ _ List.nodup_range (fun _ h => List.mem_range.mp h) hD pts).1 i hi

theorem ctor_inf (hD : D ≤ 64) {k : Nat} (hk : k < 2 ^ D) :
    ctorPoints safety big tiny pts work (Part.cINF D + k) =
      infCoords safety (Part.getPointStats big tiny pts work true) k :=
  (ctor_foldl _ _ List.nodup_range (fun _ h => List.mem_range.mp h) hD pts).2.1 k (List.mem_range.mpr hk)

/-- The points given to the constructor: the finite ids are distributed over the threads in some way, the
coordinates are in the range in which the statistics work (C41), with least and greatest values `m`, `M`. -/
structure Input (big tiny : K) (pts : Nat → Vec D K) (ids : Finset Nat) (work : List (List Nat)) (m M : Vec D K) :
    Prop where
  dim : D ≤ 64
  work : work.flatten.Perm ids.toList
  finite : ∀ i ∈ ids, i < 2 ^ 64 - 2 ^ D
  big : ∀ i ∈ ids, ∀ d, pts i d ≤ big
  tiny : ∀ d, ∃ i ∈ ids, tiny ≤ pts i d
  least : ∀ d, IsLeast ((fun i => pts i d) '' (ids : Set Nat)) (m d)
  greatest : ∀ d, IsGreatest ((fun i => pts i d) '' (ids : Set Nat)) (M d)

variable {ids : Finset Nat} {m M : Vec D K}

theorem Input.stats (h0 : 0 < D) (hi : Input big tiny pts ids work m M) (d : Fin D) :
    (Part.getPointStats big tiny pts work true).min d = m d ∧
      (Part.getPointStats big tiny pts work true).max d = M d := by
  have hfin : ∀ i ∈ ids, Part.isFinite D i = true := fun i h => Part.isFinite_iff'.mpr (hi.finite i h)
  have ht := Part.C41_parallel_partial big tiny pts ids.toList work hi.work true
    (by
      obtain ⟨i, h1, _⟩ := hi.tiny ⟨0, h0⟩
      exact ⟨i, Finset.mem_toList.mpr h1, Or.inl (hfin i h1)⟩)
    (fun i h => hi.big i (Finset.mem_toList.mp h))
    (fun d => by
      obtain ⟨i, h1, h2⟩ := hi.tiny d
      exact ⟨i, Finset.mem_toList.mpr h1, Or.inl (hfin i h1), h2⟩)
  have hset : {i | i ∈ ids.toList ∧ (Part.isFinite D i = true ∨ true = false)} = (ids : Set Nat) := by
    ext i
    simp only [Finset.mem_toList, Set.mem_setOf_eq, Finset.mem_coe]
    exact ⟨fun h => h.1, fun h => ⟨h, Or.inl (hfin i h)⟩⟩
  rw [hset] at ht
  have hset' : {x | ∃ i ∈ (ids : Set Nat), x = pts i d} = (fun i => pts i d) '' (ids : Set Nat) := by
    ext x
    constructor
    · rintro ⟨i, h1, rfl⟩; exact ⟨i, h1, rfl⟩
    · rintro ⟨i, h1, rfl⟩; exact ⟨i, h1, rfl⟩
  obtain ⟨h1, h2, _⟩ := ht d
  rw [hset'] at h1 h2
  exact ⟨h1.unique (hi.least d), h2.unique (hi.greatest d)⟩

/-- **C54 (partial).** If the coordinates are small in comparison to the extent of the points, the infinite
points are the corners of a box around the finite points. Without this hypothesis the claim is false, see
`C54_origin_violated`. -/
theorem C54_enclosed_partial (h0 : 0 < D) (hi : Input big tiny pts ids work m M)
    (hfar : ∀ i ∈ ids, ∀ d, |pts i d| < 2 * safety * (M d - m d)) :
    ∃ lo hi : Vec D K,
      (∀ k < 2 ^ D, ∀ d : Fin D, ctorPoints safety big tiny pts work (2 ^ 64 - 2 ^ D + k) d =
        if k.testBit d then hi d else lo d) ∧
      ∀ i ∈ ids, ctorPoints safety big tiny pts work i = pts i ∧ ∀ d, lo d < pts i d ∧ pts i d < hi d := by
  refine ⟨fun d => -(2 * safety * (M d - m d)), fun d => 2 * safety * (M d - m d), ?_, ?_⟩
  · intro k hk d
    have := ctor_inf (safety := safety) (big := big) (tiny := tiny) (pts := pts) (work := work) hi.dim hk
    rw [Part.cINF] at this
    rw [this, infCoords, (hi.stats h0 d).1, (hi.stats h0 d).2]
    split <;> ring
  · intro i hids
    exact ⟨ctor_finite hi.dim (hi.finite i hids), fun d => abs_lt.mp (hfar i hids d)⟩

/-- **C54 fails.** The box is centred at the origin, not at the points: if the points are far from the origin
in some dimension, no finite point is inside the box. -/
theorem C54_origin_violated (h0 : 0 < D) (hs : 0 ≤ safety) (hi : Input big tiny pts ids work m M) (d : Fin D)
    (hfar : 2 * safety * (M d - m d) ≤ m d) :
    ∀ i ∈ ids, ∀ k < 2 ^ D, ctorPoints safety big tiny pts work (2 ^ 64 - 2 ^ D + k) d ≤
      ctorPoints safety big tiny pts work i d := by
  intro i hids k hk
  have h1 := ctor_inf (safety := safety) (big := big) (tiny := tiny) (pts := pts) (work := work) hi.dim hk
  rw [Part.cINF] at h1
  rw [h1, infCoords, (hi.stats h0 d).1, (hi.stats h0 d).2, ctor_finite hi.dim (hi.finite i hids)]
  have h2 : m d ≤ pts i d := (hi.least d).2 ⟨i, hids, rfl⟩
  have h3 : m d ≤ M d := by
    obtain ⟨j, hj, e⟩ := (hi.least d).1
    exact e ▸ (hi.greatest d).2 ⟨j, hj, rfl⟩
  have h4 : 0 ≤ 2 * safety * (M d - m d) := mul_nonneg (by linarith) (sub_nonneg.mpr h3)
  split <;> nlinarith

/-- The scene after the constructor. -/
theorem Input.scene (h0 : 0 < D) (hi : Input big tiny pts ids work m M)
    (hfar : ∀ i ∈ ids, ∀ d, |pts i d| < 2 * safety * (M d - m d)) (hdist : Set.InjOn pts ids) :
    Scene D (ctorPoints safety big tiny pts work) (ids ∪ infPts D) := by
  obtain ⟨lo, hi', h1, h2⟩ := C54_enclosed_partial h0 hi hfar
  have hmem : ∀ i ∈ ids ∪ infPts D, i < Part.cINF D → i ∈ ids := by
    intro i hu hf
    rcases Finset.mem_union.mp hu with h | h
    · exact h
    · obtain ⟨k, _, rfl⟩ := exists_inf hi.dim h
      omega
  refine scene_of_box (lo := lo) (hi := hi') h0 hi.dim h1 ?_ Finset.subset_union_right ?_ ?_ ?_
  · intro i hu
    rcases Finset.mem_union.mp hu with h | h
    · exact lt_of_lt_of_le (hi.finite i h) (Nat.sub_le _ _)
    · exact ((mem_infPts hi.dim).mp h).2
  · intro d
    obtain ⟨i, hids, _⟩ := hi.tiny d
    exact ((h2 i hids).2 d).1.trans ((h2 i hids).2 d).2
  · intro i hu hf d
    obtain ⟨e, h⟩ := h2 i (hmem i hu hf)
    rw [e]
    exact h d
  · intro i ⟨hu, hf⟩ j ⟨hv, hg⟩ he
    rw [(h2 i (hmem i hu hf)).1, (h2 j (hmem j hv hg)).1] at he
    exact hdist (hmem i hu hf) (hmem j hv hg) he

end ctor

/-! ### The whole triangulator -/

section
variable {hash : Nat → BitVec 32} {depth cutoff : Nat} {parEdge : Bool} {base : Finset Nat → Tri → Prop}
  {sp : Part.Splitter} {safety big tiny : K} {cs : List Nat → Sphere D K} {ids : Finset Nat} {m M : Vec D K}
  {work : List (List Nat)}

/-- **C52 (after the constructor).** The points are those made by the constructor from distinct finite points
whose coordinates are small in comparison to their extent. -/
theorem C52_constructed (h0 : 0 < D) (hi : Input big tiny pts ids work m M)
    (hfar : ∀ i ∈ ids, ∀ d, |pts i d| < 2 * safety * (M d - m d)) (hdist : Set.InjOn pts ids)
    (hq : SettingOk depth cutoff sp big tiny (ctorPoints safety big tiny pts work) cs (ids ∪ infPts D))
    (ht : Tie (ctorPoints safety big tiny pts work) h (ids ∪ infPts D))
    (hb : BaseOk (ctorPoints safety big tiny pts work) h base (ids ∪ infPts D))
    (hT : Triangulate (params hash depth cutoff parEdge base sp big tiny (ctorPoints safety big tiny pts work) cs) 1
      (ids ∪ infPts D) T) :
    Delaunay D (ctorPoints safety big tiny pts work) (ids ∪ infPts D) T :=
  C52_delaunay (hi.scene h0 hfar hdist) hq ht hb hT

/-- **C52 (the recursion never gets stuck).** If the base triangulator always returns something, with fresh
simplex ids, so does the divide-and-conquer triangulator. -/
theorem C52_returns (hs : Scene D pts S₀) (hq : SettingOk depth cutoff sp big tiny pts cs S₀)
    (ht : Tie pts h S₀) (hb : BaseOk pts h base S₀)
    (hfresh : ∀ S (used : Finset Nat), infPts D ⊆ S → S ⊆ S₀ → ∃ T, base S T ∧ Disjoint T.range used) :
    ∃ T, Triangulate (params hash depth cutoff parEdge base sp big tiny pts cs) 1 S₀ T := by
  obtain ⟨T, hT, _⟩ := triangulate_exists (params hash depth cutoff parEdge base sp big tiny pts cs) hq.dim
    (hs.world ht) (hq.params hs ht hb) hfresh
    (fun len S _ hS hc => by
      obtain ⟨h1, h2, h3⟩ := hq.parts hs hS hc len
      exact Part.Splitter.Parts.exists hq.dim h1 h2 h3)
    _ 1 S₀ ∅ rfl le_rfl hs.inf (Finset.Subset.refl _)
  exact ⟨T, hT⟩

/-- Such base triangulators exist. -/
theorem baseOk_exists (hs : Scene D pts S₀) (ht : Tie pts h S₀) :
    ∃ base, BaseOk pts h base S₀ ∧
      ∀ S (used : Finset Nat), infPts D ⊆ S → S ⊆ S₀ → ∃ T, base S T ∧ Disjoint T.range used := by
  refine ⟨fun S T => IsDT D (fun i => hom (pts i)) h S T ∧ T.MarksOk ∧ T.mark = 0, fun S T _ _ hT => hT, ?_⟩
  intro S used hI hS
  obtain ⟨T, h1, h2, h3, h4⟩ := exists_isDT ((hs.world ht).mono hS hI) used
  exact ⟨T, ⟨h1, h2, h3⟩, h4⟩

end

/-! ### C53 -/

/-- **C53.** From the initial call (provenance of length one) at most `recursionDepth` calls are nested,
including those for the edge triangulation. -/
theorem C53_depth (A : Params D K) (S : Finset Nat) (l : List (Nat × Finset Nat))
    (hl : ((1, S) :: l).IsChain (Calls A)) : l.length ≤ A.depth := by
  suffices ∀ (l : List (Nat × Finset Nat)) (len : Nat) (S : Finset Nat), 1 ≤ len → len - 1 ≤ A.depth →
      ((len, S) :: l).IsChain (Calls A) → len - 1 + l.length ≤ A.depth by
    have := this l 1 S le_rfl (by omega) hl
    omega
  intro l
  induction l with
  | nil => intro len S _ h _; simpa using h
  | cons c l ih =>
    intro len S h1 h2 hl
    rw [List.isChain_cons_cons] at hl
    obtain ⟨hc, hl⟩ := hl
    rw [List.length_cons]
    cases hc with
    | part _ _ hc ps hps p hp => have := ih (len + 1) p.points (by omega) (by omega) hl; omega
    | edge _ _ V hc hpe => have := ih (len + 1) V (by omega) (by omega) hl; omega

/-- **C53.** Innermost calls return what the base triangulator returns. -/
theorem C53_leaf (A : Params D K) (len : Nat) (S : Finset Nat) (T : Tri) (hT : Triangulate A len S T)
    (hleaf : ∀ c, ¬ Calls A (len, S) c)
    (hsplit : A.cutoff < S.card → ∃ ps, A.split len S ps ∧ ps ≠ []) : A.base S T := by
  cases hT with
  | base _ _ _ _ hb => exact hb
  | node _ _ hc ps hps =>
    exfalso
    obtain ⟨qs, h1, h2⟩ := hsplit hc.2
    obtain ⟨p, hp⟩ := List.exists_mem_of_ne_nil _ h2
    exact hleaf _ (.part len S hc qs h1 p hp)

/-- Number of parts made by a splitter. -/
def parts (D : Nat) : Part.Splitter → Nat
  | .dWay => 2 ^ D
  | _ => 2

theorem toNat_threads (threads : BitVec 32) : (threads.setWidth 64 : BitVec 64).toNat = threads.toNat := by
  rw [BitVec.toNat_setWidth, Nat.mod_eq_of_lt]
  have := threads.isLt
  omega

/-- **C53.** The number of levels is the logarithm of the number of threads: there are at most as many leaves as
threads, and one more level would make more. In particular the depth is small enough for the marks. -/
theorem C53_levels (h0 : 0 < D) (hD : D < 64) (sp : Part.Splitter) (threads : BitVec 32) (ht : threads ≠ 0) :
    ∃ r, Returns (sp.recursionDepth D threads) r ∧ parts D sp ^ r ≤ threads.toNat ∧
      threads.toNat < parts D sp ^ (r + 1) ∧ r ≤ 42 := by
  have hne : (threads.setWidth 64 : BitVec 64) ≠ 0#64 := by
    intro h
    apply ht
    apply BitVec.eq_of_toNat_eq
    have := congrArg BitVec.toNat h
    rw [toNat_threads] at this
    simpa using this
  have hlt := threads.isLt
  have hsmall : ∀ b r : Nat, 2 ≤ b → b ^ r ≤ threads.toNat → r ≤ 42 := by
    intro b r hb hle
    by_contra hn
    have h1 : 2 ^ 43 ≤ 2 ^ r := Nat.pow_le_pow_right (by omega) (by omega)
    have h2 : 2 ^ r ≤ b ^ r := Nat.pow_le_pow_left hb r
    omega
  have h2 : ∃ r, Returns (fun fuel => (Res.done (Misc.log2W (threads.setWidth 64)) : Res Nat)) r ∧ 2 ^ r ≤ threads.toNat ∧
      threads.toNat < 2 ^ (r + 1) ∧ r ≤ 42 := by
    have := Misc.C29_log2 _ hne
    rw [toNat_threads] at this
    exact ⟨_, ⟨0, fun _ _ => rfl⟩, this.1, this.2, hsmall 2 _ le_rfl this.1⟩
  cases sp with
  | dWay =>
    obtain ⟨r, h1, h2, h3⟩ := Misc.C29_logN D h0 hD _ hne
    rw [toNat_threads] at h2 h3
    exact ⟨r, h1, h2, h3, hsmall (2 ^ D) r (Nat.one_lt_two_pow (by omega)) h2⟩
  | oneDim k => exact h2
  | cycle => exact h2
  | extend => exact h2

example : Returns (Part.Splitter.recursionDepth 2 .dWay 17#32) 2 := ⟨20, fun n hn => by
  obtain ⟨m, rfl⟩ := Nat.exists_eq_add_of_le hn
  rw [Nat.add_comm]
  rfl⟩

/-! ### An instance: four points in the plane -/

section sample

/-- The points `(i, i²)`. -/
noncomputable def samplePts : Nat → Vec 2 ℝ := fun i => ![i, i * i]

theorem sampleInput : Input (D := 2) (K := ℝ) 1000000 (1 / 1000) samplePts {1, 2, 3, 4} [[4, 2], [], [1, 3]]
    ![1, 1] ![4, 16] where
  dim := by omega
  work := by
    have h : ({1, 2, 3, 4} : Finset Nat).toList.Perm [1, 2, 3, 4] := by
      have := List.toFinset_toList (s := [1, 2, 3, 4]) (by decide)
      have e : ([1, 2, 3, 4] : List Nat).toFinset = {1, 2, 3, 4} := by decide
      rw [e] at this
      exact this
    exact List.Perm.trans (by decide) h.symm
  finite := by decide
  big := by
    intro i hi d
    simp only [Finset.mem_insert, Finset.mem_singleton] at hi
    rcases hi with rfl | rfl | rfl | rfl <;> fin_cases d <;> norm_num [samplePts]
  tiny := by
    intro d
    refine ⟨1, by simp, ?_⟩
    fin_cases d <;> norm_num [samplePts]
  least := by
    intro d
    refine ⟨⟨1, by simp, by fin_cases d <;> norm_num [samplePts]⟩, ?_⟩
    rintro _ ⟨i, hi, rfl⟩
    simp only [Finset.coe_insert, Finset.coe_singleton, Set.mem_insert_iff, Set.mem_singleton_iff] at hi
    rcases hi with rfl | rfl | rfl | rfl <;> fin_cases d <;> norm_num [samplePts]
  greatest := by
    intro d
    refine ⟨⟨4, by simp, by fin_cases d <;> norm_num [samplePts]⟩, ?_⟩
    rintro _ ⟨i, hi, rfl⟩
    simp only [Finset.coe_insert, Finset.coe_singleton, Set.mem_insert_iff, Set.mem_singleton_iff] at hi
    rcases hi with rfl | rfl | rfl | rfl <;> fin_cases d <;> norm_num [samplePts]

theorem sampleFar : ∀ i ∈ ({1, 2, 3, 4} : Finset Nat), ∀ d,
    |samplePts i d| < 2 * 100 * ((![4, 16] : Vec 2 ℝ) d - (![1, 1] : Vec 2 ℝ) d) := by
  intro i hi d
  simp only [Finset.mem_insert, Finset.mem_singleton] at hi
  rcases hi with rfl | rfl | rfl | rfl <;> fin_cases d <;> norm_num [samplePts, abs_lt]

theorem sampleInj : Set.InjOn samplePts (({1, 2, 3, 4} : Finset Nat) : Set Nat) := by
  intro i _ j _ h
  have := congrFun h 0
  simpa [samplePts] using this

theorem sampleSetting : SettingOk (K := ℝ) 3 5 .extend 1000000 (1 / 1000)
    (ctorPoints 100 1000000 (1 / 1000) samplePts [[4, 2], [], [1, 3]])
    (cs2 Real.sqrt (ctorPoints 100 1000000 (1 / 1000) samplePts [[4, 2], [], [1, 3]]))
    ({1, 2, 3, 4} ∪ infPts 2) where
  dim := by omega
  depth := by omega
  cutoff := by norm_num
  app := trivial
  big := by
    intro i hi d
    rcases Finset.mem_union.mp hi with h | h
    · rw [ctor_finite (by omega) (sampleInput.finite i h)]
      exact sampleInput.big i h d
    · obtain ⟨k, hk, rfl⟩ := exists_inf (by omega) h
      rw [ctor_inf (by omega) hk, infCoords, (sampleInput.stats (by omega) d).1, (sampleInput.stats (by omega) d).2]
      split <;> fin_cases d <;> norm_num
  tiny := by
    intro i hi hf d
    rcases Finset.mem_union.mp hi with h | h
    · rw [ctor_finite (by omega) hf]
      simp only [Finset.mem_insert, Finset.mem_singleton] at h
      rcases h with rfl | rfl | rfl | rfl <;> fin_cases d <;> norm_num [samplePts]
    · obtain ⟨k, hk, rfl⟩ := exists_inf (by omega) h
      rw [Part.cINF] at hf
      omega
  cs := circumOk2 (fun x hx => ⟨Real.sqrt_nonneg x, Real.sq_sqrt hx⟩) _ _

/-- All hypotheses of C52 hold for the sample, and the triangulator has an execution. -/
example : ∃ h base T, Tie (ctorPoints 100 1000000 (1 / 1000) samplePts [[4, 2], [], [1, 3]]) h ({1, 2, 3, 4} ∪ infPts 2) ∧
    BaseOk (ctorPoints 100 1000000 (1 / 1000) samplePts [[4, 2], [], [1, 3]]) h base ({1, 2, 3, 4} ∪ infPts 2) ∧
    Triangulate (params (fun v => BitVec.ofNat 32 v) 3 5 true base .extend 1000000 (1 / 1000)
      (ctorPoints 100 1000000 (1 / 1000) samplePts [[4, 2], [], [1, 3]])
      (cs2 Real.sqrt (ctorPoints 100 1000000 (1 / 1000) samplePts [[4, 2], [], [1, 3]]))) 1 ({1, 2, 3, 4} ∪ infPts 2) T ∧
    Delaunay 2 (ctorPoints 100 1000000 (1 / 1000) samplePts [[4, 2], [], [1, 3]]) ({1, 2, 3, 4} ∪ infPts 2) T := by
  have hs := sampleInput.scene (by omega) sampleFar sampleInj
  obtain ⟨h, ht⟩ := Tie.exists hs.distinct
  obtain ⟨base, hb, hf⟩ := baseOk_exists hs ht
  obtain ⟨T, hT⟩ := C52_returns (hash := fun v => BitVec.ofNat 32 v) (parEdge := true) hs sampleSetting ht hb hf
  exact ⟨h, base, T, ht, hb, hT, C52_delaunay hs sampleSetting ht hb hT⟩

/-- The first call of the sample is not a base case. -/
example : 1 - 1 < 3 ∧ 5 < (({1, 2, 3, 4} : Finset Nat) ∪ infPts 2).card := by decide

/-- Three points near `(1000, 1000)`: the hypotheses of `C54_origin_violated` hold. -/
noncomputable def farPts : Nat → Vec 2 ℝ := fun i => ![1000 + i, 1000 - i]

example : ∀ i ∈ ({1, 2, 3} : Finset Nat), ∀ k < 2 ^ 2,
    ctorPoints 100 1000000 (1 / 1000) farPts [[1, 2, 3]] (2 ^ 64 - 2 ^ 2 + k) 0 ≤
      ctorPoints 100 1000000 (1 / 1000) farPts [[1, 2, 3]] i 0 := by
  have hin : Input (D := 2) (K := ℝ) 1000000 (1 / 1000) farPts {1, 2, 3} [[1, 2, 3]] ![1001, 997] ![1003, 999] := by
    refine ⟨by omega, ?_, by decide, ?_, ?_, ?_, ?_⟩
    · have := List.toFinset_toList (s := [1, 2, 3]) (by decide)
      have e : ([1, 2, 3] : List Nat).toFinset = {1, 2, 3} := by decide
      rw [e] at this
      exact List.Perm.trans (by decide) this.symm
    · intro i hi d
      simp only [Finset.mem_insert, Finset.mem_singleton] at hi
      rcases hi with rfl | rfl | rfl <;> fin_cases d <;> norm_num [farPts]
    · intro d
      refine ⟨1, by simp, ?_⟩
      fin_cases d <;> norm_num [farPts]
    · intro d
      refine ⟨by fin_cases d; exacts [⟨1, by simp, by norm_num [farPts]⟩, ⟨3, by simp, by norm_num [farPts]⟩], ?_⟩
      rintro _ ⟨i, hi, rfl⟩
      simp only [Finset.coe_insert, Finset.coe_singleton, Set.mem_insert_iff, Set.mem_singleton_iff] at hi
      rcases hi with rfl | rfl | rfl <;> fin_cases d <;> norm_num [farPts]
    · intro d
      refine ⟨by fin_cases d; exacts [⟨3, by simp, by norm_num [farPts]⟩, ⟨1, by simp, by norm_num [farPts]⟩], ?_⟩
      rintro _ ⟨i, hi, rfl⟩
      simp only [Finset.coe_insert, Finset.coe_singleton, Set.mem_insert_iff, Set.mem_singleton_iff] at hi
      rcases hi with rfl | rfl | rfl <;> fin_cases d <;> norm_num [farPts]
  exact C54_origin_violated (by omega) (by norm_num) hin 0 (by norm_num)

end sample

end DC
end Verif
