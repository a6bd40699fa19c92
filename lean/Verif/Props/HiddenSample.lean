import Verif.Props.Hidden
import Verif.Props.SampleTree

/-!
# C80, C83: the nearest sample point and bounds distance partitioners

Six points: a small triangle (points 1, 2, 3) inside of a large one (points 4, 5, 6). All points are in the sample, the
small triangle being part 0 and the large one part 1. Both partitioners return these parts. The circumspheres of the hull of
part 1 do not meet the bounds of part 0, so that the large triangle, which contains part 0, stays in the result.
-/
namespace Verif
namespace DC
open Del Euc PTree Build Samp Vecs

/-- Six points. -/
noncomputable def hidPts : Nat → Vec 2 ℝ
  | 1 => ![0, 0]
  | 2 => ![1, 0]
  | 3 => ![0, 1]
  | 4 => ![0, 20]
  | 5 => ![-18, -10]
  | 6 => ![18, -12]
  | _ => ![0, 0]

theorem hidInput : Input (D := 2) (K := ℝ) 1000000 (1 / 1000) hidPts {1, 2, 3, 4, 5, 6} [[4, 2, 6], [], [5, 1, 3]]
    ![-18, -12] ![18, 20] where
  dim := by omega
  work := by
    have h : ({1, 2, 3, 4, 5, 6} : Finset Nat).toList.Perm [1, 2, 3, 4, 5, 6] := by
      have := List.toFinset_toList (s := [1, 2, 3, 4, 5, 6]) (by decide)
      have e : ([1, 2, 3, 4, 5, 6] : List Nat).toFinset = {1, 2, 3, 4, 5, 6} := by decide
      rw [e] at this
      exact this
    exact List.Perm.trans (by decide) h.symm
  finite := by decide
  big := by
    intro i hi d
    simp only [Finset.mem_insert, Finset.mem_singleton] at hi
    rcases hi with rfl | rfl | rfl | rfl | rfl | rfl <;> fin_cases d <;> norm_num [hidPts]
  tiny := by
    intro d
    fin_cases d
    · exact ⟨6, by simp, by norm_num [hidPts]⟩
    · exact ⟨4, by simp, by norm_num [hidPts]⟩
  least := by
    intro d
    refine ⟨by fin_cases d; exacts [⟨5, by simp, by norm_num [hidPts]⟩, ⟨6, by simp, by norm_num [hidPts]⟩], ?_⟩
    rintro _ ⟨i, hi, rfl⟩
    simp only [Finset.coe_insert, Finset.coe_singleton, Set.mem_insert_iff, Set.mem_singleton_iff] at hi
    rcases hi with rfl | rfl | rfl | rfl | rfl | rfl <;> fin_cases d <;> norm_num [hidPts]
  greatest := by
    intro d
    refine ⟨by fin_cases d; exacts [⟨6, by simp, by norm_num [hidPts]⟩, ⟨4, by simp, by norm_num [hidPts]⟩], ?_⟩
    rintro _ ⟨i, hi, rfl⟩
    simp only [Finset.coe_insert, Finset.coe_singleton, Set.mem_insert_iff, Set.mem_singleton_iff] at hi
    rcases hi with rfl | rfl | rfl | rfl | rfl | rfl <;> fin_cases d <;> norm_num [hidPts]

/-- The points with the infinite points of the constructor. -/
noncomputable def hpts : Nat → Vec 2 ℝ := ctorPoints 100 1000000 (1 / 1000) hidPts [[4, 2, 6], [], [5, 1, 3]]

/-- All ids. -/
def hids : Finset Nat := {1, 2, 3, 4, 5, 6} ∪ infPts 2

theorem hidScene : Scene 2 hpts hids := by
  refine hidInput.scene (by omega) ?_ ?_
  · intro i hi d
    simp only [Finset.mem_insert, Finset.mem_singleton] at hi
    rcases hi with rfl | rfl | rfl | rfl | rfl | rfl <;> fin_cases d <;> norm_num [hidPts, abs_lt]
  · intro i hi j hj h
    have h0 := congrFun h 0
    have h1 := congrFun h 1
    simp only [Finset.coe_insert, Finset.coe_singleton, Set.mem_insert_iff, Set.mem_singleton_iff] at hi hj
    rcases hi with rfl | rfl | rfl | rfl | rfl | rfl <;> rcases hj with rfl | rfl | rfl | rfl | rfl | rfl <;>
      first | rfl | (exfalso; norm_num [hidPts] at h0; done) | (exfalso; norm_num [hidPts] at h1; done)

theorem hpts_fin {v : Nat} (hf : v < 2 ^ 64 - 2 ^ 2) : hpts v = hidPts v := ctor_finite (by omega) hf

theorem hpts_inf {v : Nat} (hv : v ∈ infPts 2) : (hpts v 0 = 7200 ∨ hpts v 0 = -7200) ∧ (hpts v 1 = 6400 ∨ hpts v 1 = -6400) := by
  obtain ⟨k, hk, rfl⟩ := exists_inf (by omega) hv
  rw [hpts, ctor_inf (by omega) hk]
  simp only [infCoords, (hidInput.stats (by omega) _).1, (hidInput.stats (by omega) _).2]
  constructor <;> split <;> norm_num

theorem hid_fin {v : Nat} (hv : v ∈ hids) (hf : v < 2 ^ 64 - 2 ^ 2) :
    v = 1 ∨ v = 2 ∨ v = 3 ∨ v = 4 ∨ v = 5 ∨ v = 6 := by
  rcases Finset.mem_union.mp hv with h | h
  · simpa using h
  · obtain ⟨k, hk, rfl⟩ := exists_inf (by omega) h
    rw [Part.cINF] at hf
    omega

theorem dist2_two (p q : Vec 2 ℝ) : dist2 p q = (p 0 - q 0) * (p 0 - q 0) + (p 1 - q 1) * (p 1 - q 1) := by
  rw [dist2, Fin.sum_univ_two]

/-- A circle through an infinite point that contains no point of the large triangle does not meet the bounds of the small one. -/
theorem far_circle {P c p : Vec 2 ℝ} {ρ : ℝ} (h4 : ρ ≤ dist2 ![0, 20] c) (h5 : ρ ≤ dist2 ![-18, -10] c)
    (h6 : ρ ≤ dist2 ![18, -12] c) (hP : dist2 P c = ρ) (hP0 : P 0 = 7200 ∨ P 0 = -7200) (hP1 : P 1 = 6400 ∨ P 1 = -6400)
    (hp : ∀ d, 0 ≤ p d ∧ p d ≤ 1) : ρ < dist2 p c := by
  by_contra hcon
  rw [not_lt, dist2_two] at hcon
  rw [dist2_two] at h4 h5 h6 hP
  simp only [Matrix.cons_val_zero, Matrix.cons_val_one] at h4 h5 h6
  obtain ⟨a1, a2⟩ := hp 0
  obtain ⟨b1, b2⟩ := hp 1
  set e := c 0 * c 0 + c 1 * c 1 - ρ with he
  have g4 : 0 ≤ 400 - 40 * c 1 + e := by rw [he]; linarith
  have g5 : 0 ≤ 424 + 36 * c 0 + 20 * c 1 + e := by rw [he]; linarith
  have g6 : 0 ≤ 468 - 36 * c 0 + 24 * c 1 + e := by rw [he]; linarith
  have gP : P 0 * P 0 + P 1 * P 1 - 2 * (P 0 * c 0) - 2 * (P 1 * c 1) + e = 0 := by rw [he]; linarith
  have gp : e ≤ 2 * (c 0 * p 0) + 2 * (c 1 * p 1) := by
    have := mul_self_nonneg (p 0)
    have := mul_self_nonneg (p 1)
    rw [he]; linarith
  have m0 : c 0 * p 0 ≤ max (c 0) 0 := by
    rcases le_total (c 0) 0 with h | h
    · rw [max_eq_right h]; exact mul_nonpos_of_nonpos_of_nonneg h a1
    · rw [max_eq_left h]; exact mul_le_of_le_one_right h a2
  have m1 : c 1 * p 1 ≤ max (c 1) 0 := by
    rcases le_total (c 1) 0 with h | h
    · rw [max_eq_right h]; exact mul_nonpos_of_nonpos_of_nonneg h b1
    · rw [max_eq_left h]; exact mul_le_of_le_one_right h b2
  rcases le_total (c 0) 0 with h0 | h0 <;> rcases le_total (c 1) 0 with h1 | h1 <;>
    simp only [max_eq_right h0, max_eq_left h0, max_eq_right h1, max_eq_left h1] at m0 m1 <;>
    rcases hP0 with e0 | e0 <;> rcases hP1 with e1 | e1 <;> rw [e0, e1] at gP <;> linarith

/-- Balls are convex. -/
theorem convex_ball (c : Vec 2 ℝ) (ρ : ℝ) : Convex ℝ {p : Vec 2 ℝ | dist2 p c ≤ ρ} := by
  intro p hp q hq a b ha hb hab
  simp only [Set.mem_setOf_eq, dist2_two] at hp hq ⊢
  simp only [Pi.add_apply, Pi.smul_apply, smul_eq_mul]
  obtain rfl : b = 1 - a := by linarith
  have h := mul_nonneg ha hb
  have k0 := mul_nonneg h (mul_self_nonneg (p 0 - q 0))
  have k1 := mul_nonneg h (mul_self_nonneg (p 1 - q 1))
  have e1 := mul_le_mul_of_nonneg_left hp ha
  have e2 := mul_le_mul_of_nonneg_left hq hb
  nlinarith

section
variable {h : Nat → ℝ}

/-- The part of the large triangle. -/
def hA : Finset Nat := {4, 5, 6} ∪ infPts 2

/-- The part of the small triangle. -/
def hB : Finset Nat := {1, 2, 3} ∪ infPts 2

theorem hA_sub : hA ⊆ hids := by
  intro v hv
  rcases Finset.mem_union.mp hv with h | h
  · refine Finset.mem_union_left _ ?_
    simp only [Finset.mem_insert, Finset.mem_singleton] at h ⊢
    omega
  · exact Finset.mem_union_right _ h

theorem hB_sub : hB ⊆ hids := by
  intro v hv
  rcases Finset.mem_union.mp hv with h | h
  · refine Finset.mem_union_left _ ?_
    simp only [Finset.mem_insert, Finset.mem_singleton] at h ⊢
    omega
  · exact Finset.mem_union_right _ h

/-- No point of a part is strictly inside of the circumspheres of its Delaunay simplices. -/
theorem del_empty (ht : Tie hpts h hids) {V s : Finset Nat} (hV : V ⊆ hids) (hs : IsDel (fun i => hom (hpts i)) h V s)
    {c : Vec 2 ℝ} {ρ : ℝ} (hc : ∀ v ∈ s, dist2 (hpts v) c = ρ) {q : Nat} (hq : q ∈ V) : ρ ≤ dist2 (hpts q) c := by
  obtain ⟨h1, h2, a, h3, h4⟩ := hs
  by_contra hlt
  push_neg at hlt
  have := (ht.refines _ (h1.trans hV) h2 _ a (interp_ball.mpr hc) h3 q (hV hq)).1 (by rw [ball_hom]; linarith)
  exact absurd this (not_lt.mpr (IsDel.le h3 h4 q hq))

theorem hidA_far (ht : Tie hpts h hids) {s : Finset Nat} (hs : IsDel (fun i => hom (hpts i)) h hA s) {P : Nat} (hP : P ∈ s)
    (hPI : P ∈ infPts 2) {c : Vec 2 ℝ} {ρ : ℝ} (hc : ∀ v ∈ s, dist2 (hpts v) c = ρ) {p : Vec 2 ℝ} (hp : ∀ d, 0 ≤ p d ∧ p d ≤ 1) :
    ρ < dist2 p c := by
  have hf : ∀ v ∈ ({4, 5, 6} : Finset Nat), ρ ≤ dist2 (hidPts v) c := by
    intro v hv
    rw [← hpts_fin (by simp only [Finset.mem_insert, Finset.mem_singleton] at hv; omega)]
    exact del_empty ht hA_sub hs hc (Finset.mem_union_left _ hv)
  obtain ⟨h0, h1⟩ := hpts_inf hPI
  exact far_circle (hf 4 (by simp)) (hf 5 (by simp)) (hf 6 (by simp)) (hc P hP) h0 h1 hp

/-- The large triangle is a Delaunay simplex of its part. -/
theorem hidA_del (ht : Tie hpts h hids) : IsDel (fun i => hom (hpts i)) h hA {4, 5, 6} := by
  have hw := (hidScene.world ht).mono hA_sub Finset.subset_union_right
  have h4 : (4 : Nat) ∈ hA := by simp [hA]
  obtain ⟨b, hb, hlt⟩ := hw.nh 4 h4
  have hsp : (⊤ : Submodule ℝ (ℝ × Vec 2 ℝ)) ≤ Submodule.span ℝ ((fun i => hom (hpts i)) '' (hA : Set Nat)) :=
    hw.span.trans (Submodule.span_mono (Set.image_mono (Finset.coe_subset.mpr hw.inf)))
  obtain ⟨t0, ht0, _⟩ := exists_isDel hw.gp hsp h4 (a := b) (fun i hi => by
    by_cases he : i = 4
    · rw [he, hb]
    · exact (hlt i hi he).le) hb
  have h1c : InCone (K := ℝ) (fun i => hom (hpts i)) hA (hom (hpts 1)) := by
    have := hidScene.inside 1 (by simp [hids])
    rw [inCone_iff]
    exact convexHull_mono (Set.image_mono (by intro v hv; exact Finset.mem_union_right _ hv)) this
  obtain ⟨t, htd, hc⟩ := MergeHyp.exists_cone hw.gp ⟨t0, ht0⟩ h1c
  rw [inCone_iff] at hc
  obtain ⟨a, ha⟩ := htd.2.1.exists_interp (fun i => nsq (hpts i))
  obtain ⟨c, ρ, rfl⟩ := exists_ball a
  rw [interp_ball] at ha
  have hin : dist2 (hpts 1) c ≤ ρ := by
    refine convexHull_min ?_ (convex_ball c ρ) hc
    rintro _ ⟨v, hv, rfl⟩
    exact (ha v hv).le
  have hno : ∀ v ∈ t, v ∉ infPts 2 := by
    intro P hP hPI
    refine absurd (hidA_far ht htd hP hPI ha (p := hpts 1) ?_) (not_lt.mpr hin)
    rw [hpts_fin (by norm_num)]
    intro d
    fin_cases d <;> norm_num [hidPts]
  have hsub : t ⊆ {4, 5, 6} := by
    intro v hv
    rcases Finset.mem_union.mp (htd.1 hv) with h | h
    · exact h
    · exact absurd h (hno v hv)
  have hcard : t.card = 3 := by rw [htd.2.1.1, finrank_hom]
  rwa [Finset.eq_of_subset_of_card_le hsub (by rw [hcard]; decide)] at htd

/-- A triangulation with the large triangle is not Delaunay. -/
theorem hid_not {T : Tri} {i : Nat} (hi : T.contains i = true) (hv : (T.vs i).toFinset = {4, 5, 6}) : ¬ Delaunay 2 hpts hids T := by
  intro hd
  obtain ⟨_, _, hs⟩ := hd.simplex i hi
  obtain ⟨a, ha⟩ := (isSimp_iff.mpr hs).exists_interp (fun i => nsq (hpts i))
  obtain ⟨c, ρ, rfl⟩ := exists_ball a
  rw [interp_ball] at ha
  have h1 := hd.empty i hi c ρ (fun v hv => ha v (List.mem_toFinset.mpr hv)) 1 (by simp [hids])
  rw [hv] at ha
  have h4 := ha 4 (by simp)
  have h5 := ha 5 (by simp)
  have h6 := ha 6 (by simp)
  rw [hpts_fin (by norm_num), dist2_two] at h1 h4 h5 h6
  simp only [hidPts, Matrix.cons_val_zero, Matrix.cons_val_one] at h1 h4 h5 h6
  linarith

/-- Some hull simplex of the small triangle's part has a finite vertex. -/
theorem hidB_hull (ht : Tie hpts h hids) : ∃ s, IsDel (fun i => hom (hpts i)) h hB s ∧ ¬ s ⊆ infPts 2 ∧ ∃ v ∈ s, v ∈ infPts 2 := by
  have hw := (hidScene.world ht).mono hB_sub Finset.subset_union_right
  have hP : Part.cINF 2 + 0 ∈ infPts 2 := inf_mem (by omega) (by norm_num)
  have hPB : Part.cINF 2 + 0 ∈ hB := Finset.mem_union_right _ hP
  obtain ⟨b, hb, hlt⟩ := hw.nh _ hPB
  have hsp : (⊤ : Submodule ℝ (ℝ × Vec 2 ℝ)) ≤ Submodule.span ℝ ((fun i => hom (hpts i)) '' (hB : Set Nat)) :=
    hw.span.trans (Submodule.span_mono (Set.image_mono (Finset.coe_subset.mpr hw.inf)))
  obtain ⟨s, hs, hPs⟩ := exists_isDel hw.gp hsp hPB (a := b) (fun i hi => by
    by_cases he : i = Part.cINF 2 + 0
    · rw [he, hb]
    · exact (hlt i hi he).le) hb
  refine ⟨s, hs, fun hsub => ?_, _, hPs, hP⟩
  have h1 : (1 : Nat) ∈ hB := by simp [hB]
  have h1I : (1 : Nat) ∉ infPts 2 := by decide
  have g1 := hw.infEmpty _ hsub hs.2.1 _ (hs.interp).1 1 h1 h1I
  have g2 := hs.interp.2 1 h1 (fun hm => h1I (hsub hm))
  exact lt_asymm g1 g2

/-- The tree of both partitioners. -/
noncomputable def hidTree (u : Box 2 ℝ) (it : Finset Nat → List Nat) (bounds : Box 2 ℝ) : PTree (Chk 2 ℝ) :=
  .node (some (.ofBox bounds)) [.leaf (some (mkBounds u it hpts hB)) hB, .leaf (some (mkBounds u it hpts hA)) hA]

theorem hid_assign {part : Nat → Nat} (h1 : part 1 = 0) (h2 : part 2 = 0) (h3 : part 3 = 0) (h4 : part 4 = 1) (h5 : part 5 = 1)
    (h6 : part 6 = 1) (mkChk : Finset Nat → Chk 2 ℝ) (bounds : Box 2 ℝ) : assign 2 part mkChk bounds hids =
      some (.node (some (.ofBox bounds)) [.leaf (some (mkChk hB)) hB, .leaf (some (mkChk hA)) hA]) := by
  have hfin : ∀ i ∈ hids, Part.isFinite 2 i = true → i = 1 ∨ i = 2 ∨ i = 3 ∨ i = 4 ∨ i = 5 ∨ i = 6 :=
    fun i hi hf => hid_fin hi (Part.isFinite_iff'.mp hf)
  have hmem : ∀ (j : Nat) (F : Finset Nat), (∀ i ∈ hids, Part.isFinite 2 i = true → (part i = j ↔ i ∈ F)) →
      (∀ i ∈ F, i ∈ hids ∧ Part.isFinite 2 i = true) → Checker.partIds 2 hids part j = F ∪ infPts 2 := by
    intro j F hF hF'
    ext v
    have := mem_addInf (D := 2) (by omega) (s := hids.filter fun p => Part.isFinite 2 p = true ∧ part p = j) (i := v)
    rw [show Checker.partIds 2 hids part j = addInf 2 (hids.filter fun p => Part.isFinite 2 p = true ∧ part p = j) from rfl, this,
      Finset.mem_union, Finset.mem_filter, mem_infPts (by omega), ← Bool.not_eq_true, Part.isFinite_iff']
    constructor
    · rintro (h | ⟨a, b, c⟩)
      · exact Or.inr ⟨by omega, h.2⟩
      · exact Or.inl ((hF v a (Part.isFinite_iff'.mpr b)).mp c)
    · rintro (h | h)
      · exact Or.inr ⟨(hF' v h).1, Part.isFinite_iff'.mp (hF' v h).2, (hF v (hF' v h).1 (hF' v h).2).mpr h⟩
      · exact Or.inl ⟨by omega, h.2⟩
  have e0 : Checker.partIds 2 hids part 0 = hB := hmem 0 {1, 2, 3} (by
    intro i hi hf
    rcases hfin i hi hf with rfl | rfl | rfl | rfl | rfl | rfl <;> simp [*]) (by decide)
  have e1 : Checker.partIds 2 hids part 1 = hA := hmem 1 {4, 5, 6} (by
    intro i hi hf
    rcases hfin i hi hf with rfl | rfl | rfl | rfl | rfl | rfl <;> simp [*]) (by decide)
  unfold assign
  rw [if_pos (by
    intro i hi hf
    rcases hfin i hi hf with rfl | rfl | rfl | rfl | rfl | rfl <;> omega)]
  simp [List.range_succ, e0, e1]

theorem hidBox {it : Finset Nat → List Nat} (hit : ∀ s i, i ∈ it s ↔ i ∈ s) (u : Box 2 ℝ) {F : Finset Nat} {v : Nat} (hv : v ∈ F)
    (hf : v < 2 ^ 64 - 2 ^ 2) : ∃ b : Box 2 ℝ, Checker.partBounds u (((it F).filter (Part.isFinite 2)).map hpts) = b ∧
      (∀ w ∈ F, w < 2 ^ 64 - 2 ^ 2 → ∀ d, b.low d ≤ hpts w d ∧ hpts w d ≤ b.high d) ∧
      ∀ d, (∃ w ∈ F, w < 2 ^ 64 - 2 ^ 2 ∧ b.low d = hpts w d) ∧ ∃ w ∈ F, w < 2 ^ 64 - 2 ^ 2 ∧ b.high d = hpts w d := by
  have hmem : ∀ p, p ∈ ((it F).filter (Part.isFinite 2)).map hpts ↔ ∃ w ∈ F, w < 2 ^ 64 - 2 ^ 2 ∧ hpts w = p := by
    intro p
    rw [List.mem_map]
    refine exists_congr fun w => ?_
    rw [List.mem_filter, hit, Part.isFinite_iff', and_assoc]
  obtain ⟨b, h1, h2, h3, _⟩ := Box.C66_bounding_box (List.ne_nil_of_mem ((hmem _).mpr ⟨v, hv, hf, rfl⟩))
  refine ⟨b, by rw [Checker.partBounds, h1, Option.getD_some], fun w hw hwf d => ?_, fun d => ⟨?_, ?_⟩⟩
  · exact (Box.C35_contains_point b _).mp (h2 _ ((hmem _).mpr ⟨w, hw, hwf, rfl⟩)) d
  · obtain ⟨p, hp, e⟩ := (h3 d).1
    obtain ⟨w, hw, hwf, rfl⟩ := (hmem p).mp hp
    exact ⟨w, hw, hwf, e.symm⟩
  · obtain ⟨p, hp, e⟩ := (h3 d).2
    obtain ⟨w, hw, hwf, rfl⟩ := (hmem p).mp hp
    exact ⟨w, hw, hwf, e.symm⟩

theorem hB_fin {v : Nat} (hv : v ∈ hB) (hf : v < 2 ^ 64 - 2 ^ 2) : v = 1 ∨ v = 2 ∨ v = 3 := by
  rcases Finset.mem_union.mp hv with h | h
  · simpa using h
  · rw [mem_infPts (by omega), ← Bool.not_eq_true, Part.isFinite_iff'] at h
    omega

/-- With the tree of both partitioners the triangulator returns, but never a Delaunay triangulation. -/
theorem hid_run (hash : Nat → BitVec 32) (depth cutoff : Nat) (big tiny : ℝ) {seq : Finset Nat → Tri → Prop}
    (hseq : SeqOk hpts seq hids) (u : Box 2 ℝ) {it : Finset Nat → List Nat} (hit : ∀ s i, i ∈ it s ↔ i ∈ s) (bounds : Box 2 ℝ) :
    (∃ T, LBTri (lbParams hash depth cutoff false false seq big tiny hpts (cs2 Real.sqrt hpts)) 1 (hidTree u it bounds) T) ∧
    ∀ T, LBTri (lbParams hash depth cutoff false false seq big tiny hpts (cs2 Real.sqrt hpts)) 1 (hidTree u it bounds) T →
      ¬ Delaunay 2 hpts hids T := by
  obtain ⟨h, ht, hb, hfresh⟩ := hseq
  have hcirc : CircumOk hpts (cs2 Real.sqrt hpts) hids := circumOk2 (fun x hx => ⟨Real.sqrt_nonneg x, Real.sq_sqrt hx⟩) _ _
  have hq : LBSettingOk depth cutoff false false big tiny hpts (cs2 Real.sqrt hpts) hids 1 :=
    ⟨by omega, hcirc, by simp, by omega⟩
  obtain ⟨hB', hm⟩ := hq.base (hash := hash) hidScene ht hb
  have hw := hidScene.world ht
  have hl : Leaves hids [.leaf (some (mkBounds u it hpts hB)) hB, .leaf (some (mkBounds u it hpts hA)) hA] := by
    intro t ht
    simp only [List.mem_cons, List.not_mem_nil, or_false] at ht
    rcases ht with rfl | rfl
    · exact ⟨_, _, rfl, Finset.subset_union_right, hB_sub⟩
    · exact ⟨_, _, rfl, Finset.subset_union_right, hA_sub⟩
  constructor
  · obtain ⟨s, hs, hsI, hsF⟩ := hidB_hull ht
    refine lb_hidden_exists (x := fun i => hom (hpts i)) (h := h) (S₀ := hids) (by omega) hw hB' (by omega) ?_ le_rfl hl (by simp) ?_
      (j := 0) (k := 1) (by omega) (cj := some (mkBounds u it hpts hB)) (ck := mkBounds u it hpts hA) (Sj := hB) (Sk := hA) rfl rfl
      hs hsI hsF ?_
    · intro par len V used hpar _ hI hV
      have hp : par = false := by rcases hpar with h | h <;> exact h
      obtain ⟨T, h1, h2⟩ := hfresh V used hI hV
      exact ⟨T, by show (if par = true then _ else _); rw [if_neg (by simp [hp])]; exact h1, h2⟩
    · have hsep : ∀ v, v ∈ hB → v ∈ hA → v ∉ infPts 2 → False := by
        intro v h1 h2 h3
        have h1 := (Finset.mem_union.mp h1).resolve_right h3
        have h2 := (Finset.mem_union.mp h2).resolve_right h3
        simp only [Finset.mem_insert, Finset.mem_singleton] at h1 h2
        omega
      intro i j ci cj Si Sj hi hj v hv1 hv2 hvI
      match i, j with
      | 0, 0 => rfl
      | 1, 1 => rfl
      | 0, 1 => cases hi; cases hj; exact (hsep v hv1 hv2 hvI).elim
      | 1, 0 => cases hi; cases hj; exact (hsep v hv2 hv1 hvI).elim
      | n + 2, _ => simp at hi
      | _, n + 2 => simp at hj
    · intro vs hvs hnd
      obtain ⟨w, hw1, hw2⟩ := Finset.not_subset.mp hsI
      have hwB : w ∈ hB := hs.1 hw1
      have hwf : w < 2 ^ 64 - 2 ^ 2 := not_inf (by omega) hw2 (hidScene.ids w (hB_sub hwB))
      obtain ⟨r1, r2⟩ := hcirc vs hnd (by rw [hvs]; exact hs.1.trans hB_sub) (by rw [hvs]; exact isSimp_iff.mp hs.2.1)
      obtain ⟨b, g1, g2, _⟩ := hidBox hit u (F := hA) (v := 4) (by simp [hA]) (by norm_num)
      change (Checker.partBounds u (((it hA).filter (Part.isFinite 2)).map hpts)).intersects (cs2 Real.sqrt hpts vs) = true
      rw [g1, Box.C35_intersects b _ r1 (fun d => (g2 4 (by simp [hA]) (by norm_num) d).1.trans (g2 4 (by simp [hA]) (by norm_num) d).2)]
      refine ⟨hpts w, ?_, le_of_eq (r2 w (by rw [← List.mem_toFinset, hvs]; exact hw1))⟩
      have k4 := g2 4 (by simp [hA]) (by norm_num)
      have k5 := g2 5 (by simp [hA]) (by norm_num)
      have k6 := g2 6 (by simp [hA]) (by norm_num)
      rw [hpts_fin (by norm_num)] at k4 k5 k6
      rw [hpts_fin hwf]
      have k40 := k4 0
      have k41 := k4 1
      have k50 := k5 0
      have k51 := k5 1
      have k60 := k6 0
      have k61 := k6 1
      simp only [hidPts, Matrix.cons_val_zero, Matrix.cons_val_one] at k40 k41 k50 k51 k60 k61
      intro d
      rcases hB_fin hwB hwf with rfl | rfl | rfl <;> fin_cases d <;>
        simp only [hidPts, Fin.zero_eta, Fin.mk_one, Matrix.cons_val_zero, Matrix.cons_val_one] <;> constructor <;> linarith
  · intro T hT
    obtain ⟨i, hi, hv⟩ := lb_hidden (x := fun i => hom (hpts i)) (h := h) (S₀ := hids) hw hB' (by omega) le_rfl hl (by simp) (j := 1)
      (cj := some (mkBounds u it hpts hA)) (Sj := hA) rfl (by
      intro k ck Sk hk hkl vs hsorted hdel hinf
      obtain rfl : k = 0 := by
        match k with
        | 0 => rfl
        | 1 => exact absurd rfl hk
        | n + 2 => simp at hkl
      cases hkl
      have hnd : vs.Nodup := hsorted.imp fun h => ne_of_lt h
      obtain ⟨r1, r2⟩ := hcirc vs hnd (hdel.1.trans hA_sub) (isSimp_iff.mp hdel.2.1)
      obtain ⟨b, g1, g2, g3⟩ := hidBox hit u (F := hB) (v := 1) (by simp [hB]) (by norm_num)
      change (Checker.partBounds u (((it hB).filter (Part.isFinite 2)).map hpts)).intersects (cs2 Real.sqrt hpts vs) = false
      rw [g1, ← Bool.not_eq_true, Box.C35_intersects b _ r1
        (fun d => (g2 1 (by simp [hB]) (by norm_num) d).1.trans (g2 1 (by simp [hB]) (by norm_num) d).2)]
      rintro ⟨p, hp, hle⟩
      have hv : ∃ P ∈ vs, P ∈ infPts 2 := by
        rw [vsFinite, List.all_eq_false] at hinf
        obtain ⟨P, hP, hPf⟩ := hinf
        exact ⟨P, hP, (mem_infPts (by omega)).mpr ⟨by simpa using hPf,
          hidScene.ids P (hA_sub (hdel.1 (List.mem_toFinset.mpr hP)))⟩⟩
      obtain ⟨P, hP, hPI⟩ := hv
      refine absurd (hidA_far ht hdel (List.mem_toFinset.mpr hP) hPI (fun v hv => r2 v (List.mem_toFinset.mp hv)) (p := p) ?_)
        (not_lt.mpr hle)
      intro d
      obtain ⟨⟨w, hw1, hw2, hw3⟩, w', hw1', hw2', hw3'⟩ := g3 d
      obtain ⟨p1, p2⟩ := hp d
      rw [hw3, hpts_fin hw2] at p1
      rw [hw3', hpts_fin hw2'] at p2
      have q1 : 0 ≤ hidPts w d := by
        rcases hB_fin hw1 hw2 with rfl | rfl | rfl <;> fin_cases d <;> norm_num [hidPts]
      have q2 : hidPts w' d ≤ 1 := by
        rcases hB_fin hw1' hw2' with rfl | rfl | rfl <;> fin_cases d <;> norm_num [hidPts]
      exact ⟨q1.trans p1, p2.trans q2⟩) hT (hidA_del ht)
    exact hid_not hi hv

/-- **C83 (violated).** Point 1 is in the convex hull of the points of the other child. -/
theorem hid_not_sep (u : Box 2 ℝ) (it : Finset Nat → List Nat) (bounds : Box 2 ℝ) : ¬ Separated hpts (hidTree u it bounds) := by
  intro hsep
  refine hsep [] _ _ (sub_nil _) (by simp) 1 0 _ _ rfl rfl (by omega) 1 (by simp [collectIds, hB]) (by norm_num) ?_
  have hm : ∀ (v : Nat), v = 4 ∨ v = 5 ∨ v = 6 → hidPts v ∈
      hpts '' {w | w ∈ (PTree.leaf (some (mkBounds u it hpts hA)) hA).collectIds ∧ w < 2 ^ 64 - 2 ^ 2} := by
    intro v hv
    refine ⟨v, ⟨by rw [collectIds, hA]; exact Finset.mem_union_left _ (by simpa using hv), by omega⟩, hpts_fin (by omega)⟩
  have hc := convex_convexHull ℝ (hpts '' {w | w ∈ (PTree.leaf (some (mkBounds u it hpts hA)) hA).collectIds ∧ w < 2 ^ 64 - 2 ^ 2})
  have e : hpts 1 = (11 / 31 : ℝ) • hidPts 4 + (20 / 31 : ℝ) • ((1 / 2 : ℝ) • hidPts 5 + (1 / 2 : ℝ) • hidPts 6) := by
    rw [hpts_fin (by norm_num)]
    ext d
    fin_cases d <;> norm_num [hidPts]
  rw [e]
  exact hc (subset_convexHull _ _ (hm 4 (by simp))) (hc (subset_convexHull _ _ (hm 5 (by simp))) (subset_convexHull _ _ (hm 6 (by simp)))
    (by norm_num) (by norm_num) (by norm_num)) (by norm_num) (by norm_num) (by norm_num)

/-- The sample: all points. -/
noncomputable def hidSample : List (Nat × Vec 2 ℝ) :=
  [(0, hidPts 1), (0, hidPts 2), (0, hidPts 3), (1, hidPts 4), (1, hidPts 5), (1, hidPts 6)]

theorem exists_nearest : ∃ nn : Vec 2 ℝ → Nat, ∀ v, Nearest hidSample v (nn v) := by
  refine Classical.skolem.mp fun v => ?_
  obtain ⟨x, hx, hmin⟩ := Set.exists_min_image {x | x ∈ hidSample} (fun x : Nat × Vec 2 ℝ => lenSq (Vecs.sub x.2 v))
    hidSample.finite_toSet ⟨(0, hidPts 1), by simp [hidSample]⟩
  obtain ⟨n, hn⟩ := List.mem_iff_getElem?.mp hx
  exact ⟨n, x, hn, hmin⟩

theorem hidSeq : ∃ seq, SeqOk hpts seq hids := by
  obtain ⟨h, ht⟩ := Tie.exists hidScene.distinct
  obtain ⟨base, hb, hf⟩ := baseOk_exists hidScene ht
  exact ⟨base, h, ht, hb, hf⟩

/-- **C80 (nearest sample point, violated).** With the nearest sample point partitioner, whichever nearest points the kd-tree
finds, the triangulator returns something for this input, but it never is a Delaunay triangulation. -/
theorem C80_nearest_violated (hash : Nat → BitVec 32) (depth cutoff : Nat) (big tiny : ℝ) {seq : Finset Nat → Tri → Prop}
    (hseq : SeqOk hpts seq hids) (u : Box 2 ℝ) {it : Finset Nat → List Nat} (hit : ∀ s i, i ∈ it s ↔ i ∈ s) (bounds : Box 2 ℝ)
    (nn : Vec 2 ℝ → Nat) (hnn : ∀ v, Nearest hidSample v (nn v)) : ∃ t,
    nearestSample 2 hidSample nn (mkBounds u it hpts) hpts bounds hids = some t ∧
    ¬ Separated hpts t ∧
    (∃ T, LBTri (lbParams hash depth cutoff false false seq big tiny hpts (cs2 Real.sqrt hpts)) 1 t T) ∧
    ∀ T, LBTri (lbParams hash depth cutoff false false seq big tiny hpts (cs2 Real.sqrt hpts)) 1 t T → ¬ Delaunay 2 hpts hids T := by
  refine ⟨hidTree u it bounds, ?_, hid_not_sep _ _ _, hid_run hash depth cutoff big tiny hseq u hit bounds⟩
  have key : ∀ (i q : Nat), i < 2 ^ 64 - 2 ^ 2 → (q, hidPts i) ∈ hidSample →
      (∀ x ∈ hidSample, x.2 = hidPts i → x.1 = q) → ((hidSample[nn (hpts i)]?).map Prod.fst).getD 0 = q := by
    intro i q hf hm hq
    obtain ⟨x, h1, h2⟩ := hnn (hpts i)
    rw [h1]
    rw [hpts_fin hf] at h2
    have h3 := h2 _ hm
    simp only [lenSq_eq, Vecs.sub_apply, sub_self, mul_zero, Finset.sum_const_zero] at h3
    refine hq x (List.mem_of_getElem? h1) (funext fun d => ?_)
    have h4 := (Finset.sum_eq_zero_iff_of_nonneg fun d _ => mul_self_nonneg (x.2 d - hidPts i d)).mp
      (le_antisymm h3 (Finset.sum_nonneg fun d _ => mul_self_nonneg _)) d (Finset.mem_univ _)
    exact sub_eq_zero.mp (mul_self_eq_zero.mp h4)
  have hne : ∀ (i j : Nat), i ∈ hids → j ∈ hids → i < 2 ^ 64 - 2 ^ 2 → j < 2 ^ 64 - 2 ^ 2 → hidPts i = hidPts j → i = j := by
    intro i j hi hj hif hjf e
    exact hidScene.distinct hi hj (by rw [hpts_fin hif, hpts_fin hjf]; exact e)
  rw [nearestSample, if_pos (by
    intro i _ _
    obtain ⟨x, h1, _⟩ := hnn (hpts i)
    exact (List.getElem?_eq_some_iff.mp h1).1)]
  have hk : ∀ (i : Nat), i = 1 ∨ i = 2 ∨ i = 3 ∨ i = 4 ∨ i = 5 ∨ i = 6 →
      ((hidSample[nn (hpts i)]?).map Prod.fst).getD 0 = if i ≤ 3 then 0 else 1 := by
    intro i hi
    refine key i _ (by omega) ?_ ?_
    · rcases hi with rfl | rfl | rfl | rfl | rfl | rfl <;> simp [hidSample]
    · intro x hx e
      have hs : ∃ j, (j = 1 ∨ j = 2 ∨ j = 3 ∨ j = 4 ∨ j = 5 ∨ j = 6) ∧ x.2 = hidPts j ∧ x.1 = if j ≤ 3 then 0 else 1 := by
        simp only [hidSample, List.mem_cons, List.not_mem_nil, or_false] at hx
        rcases hx with rfl | rfl | rfl | rfl | rfl | rfl
        exacts [⟨1, by simp⟩, ⟨2, by simp⟩, ⟨3, by simp⟩, ⟨4, by simp⟩, ⟨5, by simp⟩, ⟨6, by simp⟩]
      obtain ⟨j, hj, e2, e3⟩ := hs
      have hij := hne i j (by simp [hids]; omega) (by simp [hids]; omega) (by omega) (by omega) (e.symm.trans e2)
      rw [e3, hij]
  exact hid_assign (by rw [hk 1 (by simp)]; simp) (by rw [hk 2 (by simp)]; simp) (by rw [hk 3 (by simp)]; simp)
    (by rw [hk 4 (by simp)]; simp) (by rw [hk 5 (by simp)]; simp) (by rw [hk 6 (by simp)]; simp) _ _

/-- **C80 (bounds distance, violated).** The same for the bounds distance partitioner. -/
theorem C80_bounds_violated (hash : Nat → BitVec 32) (depth cutoff : Nat) (big tiny : ℝ) {seq : Finset Nat → Tri → Prop}
    (hseq : SeqOk hpts seq hids) (u : Box 2 ℝ) {it : Finset Nat → List Nat} (hit : ∀ s i, i ∈ it s ↔ i ∈ s) (bounds : Box 2 ℝ) : ∃ t,
    boundsDistance u 2 hidSample (mkBounds u it hpts) hpts bounds hids = some t ∧
    ¬ Separated hpts t ∧
    (∃ T, LBTri (lbParams hash depth cutoff false false seq big tiny hpts (cs2 Real.sqrt hpts)) 1 t T) ∧
    ∀ T, LBTri (lbParams hash depth cutoff false false seq big tiny hpts (cs2 Real.sqrt hpts)) 1 t T → ¬ Delaunay 2 hpts hids T := by
  refine ⟨hidTree u it bounds, ?_, hid_not_sep _ _ _, hid_run hash depth cutoff big tiny hseq u hit bounds⟩
  have hbs : boundingBoxes u 2 hidSample = some [⟨![0, 0], ![1, 1]⟩, ⟨![-18, -12], ![18, 20]⟩] := by
    rw [boundingBoxes, if_pos (by simp [hidSample])]
    have h0 : Box.around [hidPts 1, hidPts 2, hidPts 3] = some ⟨![0, 0], ![1, 1]⟩ := by
      simp only [Box.around, List.foldl, Box.enlarge, hidPts, List.range_succ, List.range_zero, List.nil_append, List.cons_append]
      rw [Option.some.injEq, Box.mk.injEq]
      constructor <;> ext d <;> fin_cases d <;> norm_num
    have h1 : Box.around [hidPts 4, hidPts 5, hidPts 6] = some ⟨![-18, -12], ![18, 20]⟩ := by
      simp only [Box.around, List.foldl, Box.enlarge, hidPts, List.range_succ, List.range_zero, List.nil_append, List.cons_append]
      rw [Option.some.injEq, Box.mk.injEq]
      constructor <;> ext d <;> fin_cases d <;> norm_num
    simp [hidSample, List.range_succ, List.filter, h0, h1]
  rw [boundsDistance, hbs, Option.bind_some]
  have hp : ∀ v : Vec 2 ℝ, boxPart [⟨![0, 0], ![1, 1]⟩, ⟨![-18, -12], ![18, 20]⟩] v =
      if lenSq (Box.vecToBox v ⟨![-18, -12], ![18, 20]⟩) < lenSq (Box.vecToBox v ⟨![0, 0], ![1, 1]⟩) then 1 else 0 := by
    intro v
    simp [boxPart, minElement, minLoop]
  have hd : ∀ v : Vec 2 ℝ, ∀ b : Box 2 ℝ, lenSq (Box.vecToBox v b) =
      Box.vecToBox v b 0 * Box.vecToBox v b 0 + Box.vecToBox v b 1 * Box.vecToBox v b 1 := by
    intro v b
    rw [lenSq_eq, Fin.sum_univ_two]
  refine hid_assign ?_ ?_ ?_ ?_ ?_ ?_ _ _ <;> rw [hp, hd, hd, hpts_fin (by norm_num)] <;>
    simp only [Box.vecToBox_eq, hidPts] <;> norm_num

/-- The hypotheses of both theorems hold, and the triangulator returns a triangulation that is not Delaunay. -/
example : ∃ seq nn t T, SeqOk hpts seq hids ∧ (∀ v, Nearest hidSample v (nn v)) ∧
    nearestSample 2 hidSample nn (mkBounds ⟨![0, 0], ![0, 0]⟩ Finset.toList hpts) hpts ⟨![-18, -12], ![18, 20]⟩ hids = some t ∧
    LBTri (lbParams (fun v => BitVec.ofNat 32 v) 3 5 false false seq 1000000 (1 / 1000) hpts (cs2 Real.sqrt hpts)) 1 t T ∧
    ¬ Delaunay 2 hpts hids T := by
  obtain ⟨seq, hseq⟩ := hidSeq
  obtain ⟨nn, hnn⟩ := exists_nearest
  obtain ⟨t, ht, _, ⟨T, hT⟩, h⟩ := C80_nearest_violated (fun v => BitVec.ofNat 32 v) 3 5 1000000 (1 / 1000) hseq ⟨![0, 0], ![0, 0]⟩
    (it := Finset.toList) (fun s i => Finset.mem_toList) ⟨![-18, -12], ![18, 20]⟩ nn hnn
  exact ⟨seq, nn, t, T, hseq, hnn, ht, hT, h T hT⟩

end
end DC
end Verif
