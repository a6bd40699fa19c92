import Verif.Props.Sample

/-!
# C80, C83: the partitioners that assign points to the parts of a sample
-/
namespace Verif
namespace Samp
open Vecs PTree Build
variable {D : Nat} {K : Type} [Field K] [LinearOrder K] [IsStrictOrderedRing K]

theorem lenSq_sub (c v : Vec D K) : lenSq (Vecs.sub c v) = Geom.dot c c - 2 * Geom.dot c v + Geom.dot v v := by
  rw [lenSq_eq, Chk.dot_eq, Chk.dot_eq, Chk.dot_eq, Finset.mul_sum, ← Finset.sum_sub_distrib, ← Finset.sum_add_distrib]
  exact Finset.sum_congr rfl fun d _ => by rw [Vecs.sub_apply]; ring

/-- The part of a point is the number of the first nearest centre. -/
theorem centerPart_spec {cs : List (Vec D K)} (hcs : cs ≠ []) (v : Vec D K) :
    ∃ c, cs[centerPart cs v]? = some c ∧ (∀ (j : Nat) c', cs[j]? = some c' → lenSq (Vecs.sub c v) ≤ lenSq (Vecs.sub c' v)) ∧
      ∀ (j : Nat) c', j < centerPart cs v → cs[j]? = some c' → lenSq (Vecs.sub c v) < lenSq (Vecs.sub c' v) :=
  minElement_spec (fun c => lenSq (Vecs.sub c v)) hcs

theorem centerPart_lt {cs : List (Vec D K)} (hcs : cs ≠ []) (v : Vec D K) : centerPart cs v < cs.length := by
  obtain ⟨c, hc, _⟩ := centerPart_spec hcs v
  exact (List.getElem?_eq_some_iff.mp hc).1

/-- The points of two parts are on different sides of a hyperplane. -/
theorem sep2_center (hD : D ≤ 64) {cs : List (Vec D K)} (hcs : cs ≠ []) (pts : Nat → Vec D K) (ids : Finset Nat) {i j : Nat}
    (hij : i < j) (hj : j < cs.length) :
    Sep2 pts (Checker.partIds D ids (fun v => centerPart cs (pts v)) i) (Checker.partIds D ids (fun v => centerPart cs (pts v)) j) := by
  have hi : i < cs.length := by omega
  have key : ∀ v, Geom.dot (fun d => 2 * (cs[j] d - cs[i] d)) v = 2 * Geom.dot cs[j] v - 2 * Geom.dot cs[i] v := by
    intro v
    rw [Chk.dot_eq, Chk.dot_eq, Chk.dot_eq, Finset.mul_sum, Finset.mul_sum, ← Finset.sum_sub_distrib]
    exact Finset.sum_congr rfl fun d _ => by ring
  refine sep2_linear (g := fun v => Geom.dot (fun d => 2 * (cs[j] d - cs[i] d)) v) (dot_linear _)
    (c := Geom.dot cs[j] cs[j] - Geom.dot cs[i] cs[i]) ?_ ?_
  · intro v hv hf
    obtain ⟨_, hp⟩ := (mem_partIds_fin hD hf).mp hv
    obtain ⟨c, hc, h1, _⟩ := centerPart_spec hcs (pts v)
    rw [hp, List.getElem?_eq_getElem hi] at hc
    cases hc
    have := h1 j _ (List.getElem?_eq_getElem hj)
    rw [lenSq_sub, lenSq_sub] at this
    rw [key]
    linarith
  · intro v hv hf
    obtain ⟨_, hp⟩ := (mem_partIds_fin hD hf).mp hv
    obtain ⟨c, hc, _, h2⟩ := centerPart_spec hcs (pts v)
    rw [hp, List.getElem?_eq_getElem hj] at hc
    cases hc
    have := h2 i _ (by rw [hp]; exact hij) (List.getElem?_eq_getElem hi)
    rw [lenSq_sub, lenSq_sub] at this
    rw [key]
    linarith

theorem separated_assign (n : Nat) (part : Nat → Nat) (mkChk : Finset Nat → Chk D K) (pts : Nat → Vec D K)
    (bounds : Box D K) (ids : Finset Nat)
    (h : ∀ i j, i < j → j < n → Sep2 pts (Checker.partIds D ids part i) (Checker.partIds D ids part j)) (t : PTree (Chk D K))
    (ht : assign n part mkChk bounds ids = some t) : Separated pts t := by
  unfold assign at ht
  split_ifs at ht
  cases ht
  refine separated_node ?_ fun t ht => ?_
  · rw [List.pairwise_map]
    refine List.Pairwise.imp_of_mem ?_ (List.pairwise_lt_range (n := n))
    intro i j _ hj hij
    exact h i j hij (List.mem_range.mp hj)
  · obtain ⟨j, _, rfl⟩ := List.mem_map.mp ht
    exact separated_leaf

/-- **C83 (centre distance).** The parts of the centre distance partitioner are separated. -/
theorem C83_center (hD : D ≤ 64) (n : Nat) (sample : List (Nat × Vec D K)) (mkChk : Finset Nat → Chk D K) (pts : Nat → Vec D K)
    (bounds : Box D K) (ids : Finset Nat) (t : PTree (Chk D K))
    (ht : centerDistance n sample mkChk pts bounds ids = some t) : Separated pts t := by
  rw [centerDistance, Option.bind_eq_some_iff] at ht
  obtain ⟨cs, hcs, ht⟩ := ht
  refine separated_assign _ _ _ _ _ _ (fun i j hij hj => ?_) t ht
  have hlen : cs.length = n := by
    rw [centers, Option.map_eq_some_iff] at hcs
    obtain ⟨st, hst, rfl⟩ := hcs
    have hlen : ∀ (l : List (Nat × Vec D K)) (st st' : List (Acc D K)), centersLoop l st = some st' → st'.length = st.length := by
      intro l
      induction l with
      | nil => intro st st' h; cases h; rfl
      | cons x l ih =>
        intro st st' h
        rw [centersLoop] at h
        split_ifs at h
        rw [ih _ _ h, List.length_modify]
    simpa using hlen _ _ _ hst
  exact sep2_center hD (by rintro rfl; simp at hlen; omega) pts ids hij (by omega)

end Samp

namespace DC
open Vecs PTree Build Samp
variable {D : Nat} {K : Type} [Field K] [LinearOrder K] [IsStrictOrderedRing K]
variable {pts : Nat → Vec D K} {S : Finset Nat} {t : PTree (Chk D K)}

omit [Field K] [LinearOrder K] [IsStrictOrderedRing K] in
theorem partIds_sub (hD : D ≤ 64) (hI : HasInf D S) (part : Nat → Nat) (i : Nat) : Checker.partIds D S part i ⊆ S :=
  addInf_sub hD (Finset.filter_subset _ _) hI

/-- Trees of assignments with separated parts are ready for the triangulator. -/
theorem ready_assign (hD : D ≤ 64) {n : Nat} (hn : 0 < n) (part : Nat → Nat) (mkChk : Finset Nat → Chk D K)
    (hm : ∀ F, (mkChk F).Covers pts F) (bounds : Box D K) (hs : Scene D pts S)
    (h : ∀ i j, i < j → j < n → Sep2 pts (Checker.partIds D S part i) (Checker.partIds D S part j))
    (ht : assign n part mkChk bounds S = some t) : Ready pts S 1 t := by
  have hp : ∀ i ∈ S, i < 2 ^ 64 - 2 ^ D → part i < n := by
    unfold assign at ht
    split_ifs at ht with hp
    exact fun i hi hf => hp i hi (Part.isFinite_iff'.mpr hf)
  obtain ⟨t', ht', hspl⟩ := C63_assign hD n part mkChk bounds S hp
  rw [ht] at ht'
  cases ht'
  have hsep := separated_assign n part mkChk pts bounds S h t ht
  have hcov := C82_assign n part mkChk pts hm bounds S t ht
  unfold assign at ht
  split_ifs at ht
  cases ht
  exact {
    splits := hspl
    within := within_node fun t ht => by
      obtain ⟨j, _, rfl⟩ := List.mem_map.mp ht
      exact partIds_sub hD (infPts_sub hD hs) part j
    covered := hcov.1
    sep := hsep
    height := paths_node fun t ht => by obtain ⟨j, _, rfl⟩ := List.mem_map.mp ht; exact paths_leaf
    shape := shape_node (by intro h; have := congrArg List.length h; simp at this; omega)
      (fun t h => by
        have : t ∈ (List.range n).map fun j => PTree.leaf (some (mkChk (Checker.partIds D S part j))) (Checker.partIds D S part j) := by
          rw [h]; simp
        obtain ⟨j, _, rfl⟩ := List.mem_map.mp this
        exact ⟨_, _, rfl⟩)
      fun t ht => by obtain ⟨j, _, rfl⟩ := List.mem_map.mp ht; exact shape_leaf
    root := by simp [PTree.chk] }

theorem twoFin_assign (hD : D ≤ 64) {n : Nat} (part : Nat → Nat) (mkChk : Finset Nat → Chk D K) (bounds : Box D K)
    {v w : Nat} (hv : v ∈ S) (hvf : v < 2 ^ 64 - 2 ^ D) (hw : w ∈ S) (hwf : w < 2 ^ 64 - 2 ^ D) (hvw : part v ≠ part w)
    (ht : assign n part mkChk bounds S = some t) : TwoFin D t := by
  unfold assign at ht
  split_ifs at ht with hp
  cases ht
  intro p c l hp' hl
  cases p with
  | cons i p =>
    rw [sub_node, List.getElem?_map] at hp'
    cases hi : (List.range n)[i]? with
    | none => rw [hi] at hp'; simp at hp'
    | some j => rw [hi] at hp'; cases p <;> simp at hp'
  | nil =>
    rw [sub_nil] at hp'
    cases hp'
    refine ⟨part v, part w, .leaf (some (mkChk (Checker.partIds D S part (part v)))) (Checker.partIds D S part (part v)),
      .leaf (some (mkChk (Checker.partIds D S part (part w)))) (Checker.partIds D S part (part w)), ?_, ?_, hvw, ⟨v, ?_, hvf⟩, w, ?_, hwf⟩
    · rw [List.getElem?_map, List.getElem?_range (hp v hv (Part.isFinite_iff'.mpr hvf))]; rfl
    · rw [List.getElem?_map, List.getElem?_range (hp w hw (Part.isFinite_iff'.mpr hwf))]; rfl
    · rw [collectIds, mem_partIds_fin hD hvf]; exact ⟨hv, rfl⟩
    · rw [collectIds, mem_partIds_fin hD hwf]; exact ⟨hw, rfl⟩

/-- **C80 (centre distance).** The centre distance partitioner returns for every sample of at least two parts, and with its
tree the load-balanced triangulator is correct if two points have different nearest centres. -/
theorem C80_center {depth cutoff : Nat} {parBase parEdge : Bool} {seq : Finset Nat → Tri → Prop} {big tiny : K}
    {cs : List Nat → Sphere D K} (hash : Nat → BitVec 32) (n : Nat) (sample : List (Nat × Vec D K))
    (hsm : ∀ x ∈ sample, x.1 < n) (mkChk : Finset Nat → Chk D K) (hm : ∀ F, (mkChk F).Covers pts F) (bounds : Box D K)
    (hs : Scene D pts S) (cen : List (Vec D K)) (hcen : centers n sample = some cen)
    (h2 : ∃ v ∈ S, ∃ w ∈ S, v < 2 ^ 64 - 2 ^ D ∧ w < 2 ^ 64 - 2 ^ D ∧ centerPart cen (pts v) ≠ centerPart cen (pts w))
    (hq : LBSettingOk depth cutoff parBase parEdge big tiny pts cs S 1) (hseq : SeqOk pts seq S) :
    ∃ t, centerDistance n sample mkChk pts bounds S = some t ∧
      LBCorrect hash depth cutoff parBase parEdge seq big tiny pts cs S t := by
  obtain ⟨cen', hc', hlen, _⟩ := C67_partial n sample hsm
  rw [hcen] at hc'
  cases hc'
  obtain ⟨v, hv, w, hw, hvf, hwf, hvw⟩ := h2
  have hne : cen ≠ [] := by
    rintro rfl
    exact hvw rfl
  have hn : 0 < n := by rw [← hlen]; exact List.length_pos_iff.mpr hne
  obtain ⟨t, ht, _⟩ := C63_assign hq.dim n (fun i => centerPart cen (pts i)) mkChk bounds S
    (fun i _ _ => by rw [← hlen]; exact centerPart_lt hne _)
  refine ⟨t, by rw [centerDistance, hcen]; exact ht, C80_run hash (ready_assign hq.dim hn _ mkChk hm bounds hs ?_ ht)
    (twoFin_assign hq.dim _ mkChk bounds hv hvf hw hwf hvw ht) hs hq hseq⟩
  intro i j hij hj
  exact sep2_center hq.dim hne pts S hij (by omega)

/-- Two sample points, points 1 and 4: their parts are points 1 and 2, and points 3 and 4. -/
example (parBase parEdge : Bool) : ∃ seq t T,
    centerDistance 2 [(0, samplePts 1), (1, samplePts 4)] (mkBounds ⟨![0, 0], ![0, 0]⟩ Finset.toList lbPts) lbPts
      ⟨![0, 0], ![5, 20]⟩ ({1, 2, 3, 4} ∪ infPts 2) = some t ∧ Separated lbPts t ∧
    LBTri (lbParams (fun v => BitVec.ofNat 32 v) 3 5 parBase parEdge seq 1000000 (1 / 1000) lbPts (cs2 Real.sqrt lbPts)) 1 t T ∧ Delaunay 2 lbPts ({1, 2, 3, 4} ∪ infPts 2) T := by
  obtain ⟨seq, hseq⟩ := lbSeq
  have hc : centers 2 [(0, samplePts 1), (1, samplePts 4)] = some [![1 / 2, 1 / 2], ![2, 8]] := by
    simp only [centers, centersLoop, List.length_replicate, List.length_modify]
    norm_num [centerStep, List.replicate, samplePts, add, scale]
    refine ⟨?_, ?_⟩ <;> ext d <;> fin_cases d <;> norm_num [add, scale]
  obtain ⟨t, ht, h⟩ := C80_center (fun v => BitVec.ofNat 32 v) 2 [(0, samplePts 1), (1, samplePts 4)] (by simp)
    (mkBounds ⟨![0, 0], ![0, 0]⟩ Finset.toList lbPts) (C82_mkBounds _ _ (fun s i => Finset.mem_toList) _) ⟨![0, 0], ![5, 20]⟩ lbScene
    _ hc ⟨1, by simp, 4, by simp, by norm_num, by norm_num, by
      rw [lbPts_fin (by norm_num), lbPts_fin (by norm_num)]
      have h1 : centerPart [![1 / 2, 1 / 2], ![2, 8]] (samplePts 1) = 0 := by
        norm_num [centerPart, minElement, minLoop, lenSq_eq, Vecs.sub_apply, samplePts, Fin.sum_univ_two]
      have h4 : centerPart [![1 / 2, 1 / 2], ![2, 8]] (samplePts 4) = 1 := by
        norm_num [centerPart, minElement, minLoop, lenSq_eq, Vecs.sub_apply, samplePts, Fin.sum_univ_two]
      rw [h1, h4]
      omega⟩ (lbSetting parBase parEdge 1 (by omega)) hseq
  obtain ⟨T, hT⟩ := h.1
  exact ⟨seq, t, T, ht, C83_center (by omega) _ _ _ _ _ _ _ ht, hT, h.2 T hT⟩

end DC
end Verif
