import Verif.Props.DivideConquer

/-!
# Correctness of `_triangulate` (C52, C53)
-/
namespace Verif
namespace DC
open Del

variable {K W : Type} [Field K] [LinearOrder K] [IsStrictOrderedRing K] [AddCommGroup W] [Module K W]
variable {D : Nat} {x : Nat → W} {h : Nat → K} {S S₀ : Finset Nat}

/-- Only the marks are changed. -/
structure SameTri (T T' : Tri) : Prop where
  range : T'.range = T.range
  id : T'.id = T.id
  vs : T'.vs = T.vs
  ns : T'.ns = T.ns
  hull : T'.hull = T.hull

omit [IsStrictOrderedRing K] in
theorem IsDT.same {T T' : Tri} (H : IsDT D x h S T) (hs : SameTri T T') : IsDT D x h S T' := by
  obtain ⟨r, i, v, n, m, l, k⟩ := T
  obtain ⟨r', i', v', n', m', l', k'⟩ := T'
  obtain ⟨rfl, rfl, rfl, rfl, rfl⟩ := hs
  exact ⟨H.sound, H.complete, H.unique, H.sorted, H.id, H.nlen, H.nbr, H.hull⟩

theorem EdgeSpec.same {T T' : Tri} (hs : SameTri T T') {meets : Nat → Bool} {e : Nat}
    (he : EdgeSpec T meets e) : EdgeSpec T' meets e := by
  induction he with
  | hull e hx hf hm => exact .hull e (by rw [hs.hull]; exact hx) hf hm
  | step e n _ hn hf hm ih => exact .step e n ih (by rw [hs.ns]; exact hn) hf hm

theorem SameTri.symm {T T' : Tri} (hs : SameTri T T') : SameTri T' T :=
  ⟨hs.range.symm, hs.id.symm, hs.vs.symm, hs.ns.symm, hs.hull.symm⟩

theorem GetEdge.same {T T' : Tri} {meets : Nat → Bool} {simps pts : Finset Nat}
    (hg : GetEdge D T meets T' simps pts) : SameTri T T' := by
  obtain ⟨mks, rfl, _⟩ := getEdge_marks hg
  exact ⟨rfl, rfl, rfl, rfl, rfl⟩

/-- What C52 needs of the components of the triangulator, for all point sets between the infinite points and
`S₀`: the base triangulator yields the Delaunay triangulation with fresh marks, the splitter a separated
partition, and the intersection test finds circumspheres that contain a point of the part. -/
structure ParamsOk (A : Params D K) (x : Nat → W) (h : Nat → K) (S₀ : Finset Nat) : Prop where
  base : ∀ S T, infPts D ⊆ S → S ⊆ S₀ → A.base S T → IsDT D x h S T ∧ T.MarksOk ∧ T.mark = 0
  split : ∀ len S ps, infPts D ⊆ S → S ⊆ S₀ → A.cutoff < S.card → A.split len S ps → SplitOk x S ps
  inter : ∀ len S ps, infPts D ⊆ S → S ⊆ S₀ → A.cutoff < S.card → A.split len S ps → ∀ p ∈ ps, ∀ vs : List Nat,
    vs.Nodup → vs.toFinset ⊆ S₀ → IsSimp (K := K) x vs.toFinset → ∀ v ∈ finPts p, v ∈ S →
    h v < interp x h vs.toFinset (x v) → A.inter p.bounds vs = true
  /-- six marks per level fit into 8 bits -/
  depth : 6 * A.depth < 256

theorem meetsOther_of {n i k : Nat} {f : Nat → Bool} (hk : k < n) (hne : k ≠ i) (hf : f k = true) :
    meetsOther n i f = true := by
  unfold meetsOther
  rw [List.any_eq_true]
  exact ⟨k, List.mem_range.mpr hk, by simp [hne, hf]⟩

/-- Test for the simplices of part `i`: the circumsphere meets the bounds of another part. -/
def meetsAny (A : Params D K) (ps : List (Part.Partition D K)) (T : Fin ps.length → Tri) (i : Fin ps.length)
    (s : Nat) : Bool := meetsOther ps.length i (A.interPart ps ((T i).vs s))

/-- Test for the simplices of part `i` against all other parts. -/
def meetsGen (n : Nat) (inter : List Nat → Nat → Bool) (T : Fin n → Tri) (i : Fin n) (s : Nat) : Bool :=
  meetsOther n i (inter ((T i).vs s))

/-- One level of the recursion up to the edge triangulation, for any test `inter vs k` of a simplex with vertices `vs`
against part `k`. -/
theorem node_hyp_gen [Module.Finite K W] (hD : D ≤ 64) (hw : World D x h S₀)
    (hI : infPts D ⊆ S) (hS : S ⊆ S₀) {ps : List (Part.Partition D K)} (hsp : SplitOk x S ps) {inter : List Nat → Nat → Bool}
    (hint : ∀ k : Fin ps.length, ∀ vs : List Nat, vs.Nodup → vs.toFinset ⊆ S₀ → IsSimp (K := K) x vs.toFinset →
      ∀ v ∈ finPts ps[k], v ∈ S → h v < interp x h vs.toFinset (x v) → inter vs k = true) {T0 T1 : Fin ps.length → Tri}
    (h0 : ∀ j : Fin ps.length, IsDT D x h ps[j].points (T0 j) ∧ (T0 j).MarksOk ∧ (T0 j).mark + 4 < 256)
    {eS eP : Nat → Finset Nat}
    (hge : ∀ j : Fin ps.length, GetEdge D (T0 j) (meetsGen ps.length inter T0 j) (T1 j) (eS j) (eP j)) :
    infPts D ⊆ (Finset.range ps.length).biUnion eP ∧ (Finset.range ps.length).biUnion eP ⊆ S ∧
    (∀ j, (T1 j).range = (T0 j).range ∧ (T1 j).MarksOk ∧ (T1 j).mark = (T0 j).mark + 2) ∧
    ∀ E, IsDT D x h ((Finset.range ps.length).biUnion eP) E → (∀ j, Disjoint E.range (T1 j).range) →
      (∀ j k, j ≠ k → Disjoint (T1 j).range (T1 k).range) →
      NodeHyp x h S ps T1 (meetsGen ps.length inter T0) ((Finset.range ps.length).biUnion eS)
        ((Finset.range ps.length).biUnion eP) E := by
  have hwS := hw.mono hS hI
  have hmh := hsp.mergeHyp hD hwS
  -- the parts
  have hpart : ∀ j : Fin ps.length, infPts D ⊆ ps[j].points ∧ ps[j].points ⊆ S := by
    intro j
    have := hsp.points hD (p := ps[j]) (List.getElem_mem j.2)
    refine ⟨by rw [this]; exact Finset.subset_union_left, ?_⟩
    rw [this]
    exact hmh.partSub j
  have hmk : ∀ j : Fin ps.length, (T0 j).mark + 2 < 256 := by
    intro j
    have := (h0 j).2.2
    omega
  have h46 := fun j : Fin ps.length => C46_getEdge D (T0 j) (T1 j) (meetsGen ps.length inter T0 j) (eS j) (eP j) (h0 j).1.wf (h0 j).2.1
    (hmk j) (hge j)
  have h47 := fun j : Fin ps.length => C47_getEdge_partial D (T0 j) (T1 j) (meetsGen ps.length inter T0 j) (eS j) (eP j) (h0 j).2.1
    (hmk j) (hge j)
  have hsame := fun j : Fin ps.length => (hge j).same
  set V := (Finset.range ps.length).biUnion eP with hV
  have hmemV : ∀ v, v ∈ V ↔ v ∈ infPts D ∨ ∃ j e, EdgeSpec (T1 j) (meetsGen ps.length inter T0 j) e ∧ v ∈ (T1 j).vs e := by
    intro v
    rw [hV, Finset.mem_biUnion]
    constructor
    · rintro ⟨j, hj, hv⟩
      rw [Finset.mem_range] at hj
      rcases ((h46 ⟨j, hj⟩).2 v).mp hv with h1 | ⟨e, he, h1⟩
      · exact Or.inl (List.mem_toFinset.mpr h1)
      · exact Or.inr ⟨⟨j, hj⟩, e, he.same (hsame _), by rw [(hsame _).vs]; exact h1⟩
    · rintro (h1 | ⟨j, e, he, h1⟩)
      · obtain ⟨j, _, _⟩ := hmh.two
        exact ⟨j, Finset.mem_range.mpr j.2, ((h46 j).2 v).mpr (Or.inl (List.mem_toFinset.mp h1))⟩
      · rw [(hsame j).vs] at h1
        exact ⟨j, Finset.mem_range.mpr j.2, ((h46 j).2 v).mpr (Or.inr ⟨e, he.same (hsame j).symm, h1⟩)⟩
  have hmemS : ∀ e, e ∈ (Finset.range ps.length).biUnion eS ↔ ∃ j, EdgeSpec (T1 j) (meetsGen ps.length inter T0 j) e := by
    intro e
    rw [Finset.mem_biUnion]
    constructor
    · rintro ⟨j, hj, he⟩
      rw [Finset.mem_range] at hj
      exact ⟨⟨j, hj⟩, (((h46 ⟨j, hj⟩).1 e).mp he).same (hsame _)⟩
    · rintro ⟨j, he⟩
      exact ⟨j, Finset.mem_range.mpr j.2, ((h46 j).1 e).mpr (he.same (hsame j).symm)⟩
  have h1 : ∀ j : Fin ps.length, IsDT D x h ps[j].points (T1 j) := fun j => (h0 j).1.same (hsame j)
  have hVS : V ⊆ S := by
    intro v hv
    rcases (hmemV v).mp hv with hv | ⟨j, e, he, hv⟩
    · exact hI hv
    · exact (hpart j).2 (((h1 j).sound e (he.contains (h1 j).wf)).1 (List.mem_toFinset.mpr hv))
  have hIV : infPts D ⊆ V := fun v hv => (hmemV v).mpr (Or.inl hv)
  refine ⟨hIV, hVS, fun j => ⟨(hsame j).range, (h47 j).1, (h47 j).2.1⟩, fun E hE hdE hd => ?_⟩
  exact
    { hD := hD, world := hwS, split := hsp, dt := h1, mem_eS := hmemS, mem_V := hmemV, edge := hE
      inter := by
        intro j k hkj i hi v hv hlt
        have hi' : (T0 j).contains i = true := by
          have hs := hsame j
          rw [Tri.contains_iff] at hi ⊢
          rw [← hs.range, ← hs.id]
          exact hi
        rw [(hsame j).vs] at hlt
        have hsd := (h0 j).1.sound i hi'
        refine meetsOther_of k.2 (fun h => hkj (Fin.ext h)) ?_
        refine hint k _ ((h0 j).1.nodup hi')
          ((hsd.1.trans (hpart j).2).trans hS) hsd.2.1 v hv
          ((hpart k).2 (Finset.mem_filter.mp hv).1) hlt
      disjE := hdE
      disj := hd }

/-- One level of the recursion up to the edge triangulation. -/
theorem node_hyp [Module.Finite K W] {A : Params D K} (hD : D ≤ 64) (hw : World D x h S₀) (hA : ParamsOk A x h S₀)
    {len : Nat} (hI : infPts D ⊆ S) (hS : S ⊆ S₀) (hc : A.cutoff < S.card)
    {ps : List (Part.Partition D K)} (hps : A.split len S ps) {T0 T1 : Fin ps.length → Tri}
    (h0 : ∀ j : Fin ps.length, IsDT D x h ps[j].points (T0 j) ∧ (T0 j).MarksOk ∧ (T0 j).mark + 4 < 256)
    {eS eP : Nat → Finset Nat}
    (hge : ∀ j : Fin ps.length, GetEdge D (T0 j) (meetsAny A ps T0 j) (T1 j) (eS j) (eP j)) :
    infPts D ⊆ (Finset.range ps.length).biUnion eP ∧ (Finset.range ps.length).biUnion eP ⊆ S ∧
    (∀ j, (T1 j).range = (T0 j).range ∧ (T1 j).MarksOk ∧ (T1 j).mark = (T0 j).mark + 2) ∧
    ∀ E, IsDT D x h ((Finset.range ps.length).biUnion eP) E → (∀ j, Disjoint E.range (T1 j).range) →
      (∀ j k, j ≠ k → Disjoint (T1 j).range (T1 k).range) →
      NodeHyp x h S ps T1 (meetsAny A ps T0) ((Finset.range ps.length).biUnion eS)
        ((Finset.range ps.length).biUnion eP) E :=
  node_hyp_gen hD hw hI hS (hA.split len S ps hI hS hc hps) (inter := A.interPart ps) (by
    intro k vs hnd hvs hsimp v hv hvS hlt
    simp only [Params.interPart, List.getElem?_eq_getElem k.2]
    exact hA.inter len S ps hI hS hc hps _ (List.getElem_mem k.2) vs hnd hvs hsimp v hv hvS hlt) h0 hge

theorem part_bounds [Module.Finite K W] {A : Params D K} (hD : D ≤ 64) (hw : World D x h S₀) (hA : ParamsOk A x h S₀)
    {len : Nat} (hI : infPts D ⊆ S) (hS : S ⊆ S₀) (hc : A.cutoff < S.card)
    {ps : List (Part.Partition D K)} (hps : A.split len S ps) (j : Fin ps.length) :
    infPts D ⊆ ps[j].points ∧ ps[j].points ⊆ S := by
  have hsp := hA.split len S ps hI hS hc hps
  have hmh := hsp.mergeHyp hD (hw.mono hS hI)
  have := hsp.points hD (p := ps[j]) (List.getElem_mem j.2)
  refine ⟨by rw [this]; exact Finset.subset_union_left, ?_⟩
  rw [this]
  exact hmh.partSub j

/-- The result of `_triangulate` on any level, for all interleavings. -/
theorem triangulate_correct [Module.Finite K W] (A : Params D K) (hD : D ≤ 64) (hw : World D x h S₀) (hA : ParamsOk A x h S₀)
    (len : Nat) (S : Finset Nat) (T : Tri) (hT : Triangulate A len S T) :
    1 ≤ len → infPts D ⊆ S → S ⊆ S₀ →
      IsDT D x h S T ∧ T.MarksOk ∧ T.mark ≤ 6 * (A.depth - (len - 1)) := by
  induction hT with
  | base len S T hc hb =>
    intro _ hI hS
    obtain ⟨h1, h2, h3⟩ := hA.base S T hI hS hb
    exact ⟨h1, h2, by omega⟩
  | node len S hc ps hps dts hlen hrec dts' hlen' eS eP hedge E hE hE' hdisj R hm ih ihE =>
    intro hl hI hS
    have hdep := hA.depth
    have hpart := part_bounds hD hw hA hI hS hc.2 hps
    let T0 : Fin ps.length → Tri := fun j => dts[j.val]'(by rw [hlen]; exact j.2)
    let T1 : Fin ps.length → Tri := fun j => dts'[j.val]'(by rw [hlen']; exact j.2)
    have hT0 : ∀ j : Fin ps.length, dts[j.val]? = some (T0 j) := fun j => List.getElem?_eq_getElem _
    have hT1 : ∀ j : Fin ps.length, dts'[j.val]? = some (T1 j) := fun j => List.getElem?_eq_getElem _
    have h0 : ∀ j : Fin ps.length, IsDT D x h ps[j].points (T0 j) ∧ (T0 j).MarksOk ∧
        (T0 j).mark ≤ 6 * (A.depth - len) := by
      intro j
      have := ih j ps[j] (T0 j) (List.getElem?_eq_getElem j.2) (hT0 j) (by omega) (hpart j).1
        ((hpart j).2.trans hS)
      rw [show len + 1 - 1 = len by omega] at this
      exact this
    have hge : ∀ j : Fin ps.length, GetEdge D (T0 j) (meetsAny A ps T0 j) (T1 j) (eS j) (eP j) :=
      fun j => hedge j (T0 j) (T1 j) (hT0 j) (hT1 j)
    obtain ⟨hIV, hVS, hT1m, hnode⟩ := node_hyp hD hw hA hI hS hc.2 hps
      (fun j => ⟨(h0 j).1, (h0 j).2.1, by have := (h0 j).2.2; omega⟩) hge
    set V := (Finset.range ps.length).biUnion eP with hV
    have hEdt : IsDT D x h V E ∧ E.MarksOk ∧ E.mark ≤ 6 * (A.depth - len) := by
      by_cases hpe : A.parEdge = true
      · have := ihE hpe (by omega) hIV (hVS.trans hS)
        rw [show len + 1 - 1 = len by omega] at this
        exact this
      · obtain ⟨a1, a2, a3⟩ := hA.base V E hIV (hVS.trans hS) (hE' (by simpa using hpe))
        exact ⟨a1, a2, by omega⟩
    obtain ⟨hd1, hd2⟩ := List.pairwise_cons.mp hdisj
    have hof : List.ofFn T1 = dts' := by
      apply List.ext_getElem (by simp [hlen'])
      intro i a b
      simp [T1]
    have hnode := hnode E hEdt.1 (fun j => hd1 (T1 j) (List.getElem_mem _)) (by
      intro j k hjk
      rcases lt_or_gt_of_ne (fun h => hjk (Fin.ext h) : j.val ≠ k.val) with hlt | hlt
      · exact List.pairwise_iff_getElem.mp hd2 j k _ _ hlt
      · exact (List.pairwise_iff_getElem.mp hd2 k j _ _ hlt).symm)
    have hmarks : ∀ j, (T1 j).MarksOk ∧ (T1 j).mark + 4 < 256 := by
      intro j
      refine ⟨(hT1m j).2.1, ?_⟩
      have e1 := (hT1m j).2.2
      have e2 := (h0 j).2.2
      omega
    have hmarkE : E.MarksOk ∧ E.mark + 4 < 256 := ⟨hEdt.2.1, by have := hEdt.2.2; omega⟩
    rw [← hof] at hm
    refine ⟨hnode.result hmarks hmarkE hm, ?_⟩
    obtain ⟨r1, B, hB, r2⟩ := mergeTri_marks (hnode.mergeIn hmarks hmarkE) hm
    refine ⟨r1, r2.trans ?_⟩
    rcases List.mem_cons.mp hB with rfl | hB
    · have := hEdt.2.2; omega
    · obtain ⟨j, rfl⟩ := List.mem_ofFn.mp hB
      have e1 := (hT1m j).2.2
      have e2 := (h0 j).2.2
      omega

/-! ### There is a result -/

theorem exists_disjoint_family : ∀ (n : Nat) (P : Fin n → Tri → Prop),
    (∀ j (used : Finset Nat), ∃ T, P j T ∧ Disjoint T.range used) → ∀ used : Finset Nat,
    ∃ T : Fin n → Tri, (∀ j, P j (T j) ∧ Disjoint (T j).range used) ∧
      ∀ j k, j ≠ k → Disjoint (T j).range (T k).range := by
  intro n
  induction n with
  | zero => intro P _ used; exact ⟨fun j => j.elim0, fun j => j.elim0, fun j => j.elim0⟩
  | succ n ih =>
    intro P hP used
    obtain ⟨T, h1, h2⟩ := ih (fun j => P j.succ) (fun j => hP j.succ) used
    obtain ⟨T0, h3, h4⟩ := hP 0 (used ∪ Finset.univ.biUnion fun j => (T j).range)
    rw [Finset.disjoint_union_right, Finset.disjoint_biUnion_right] at h4
    refine ⟨Fin.cons T0 T, ?_, ?_⟩
    · intro j
      refine Fin.cases ?_ (fun j => ?_) j
      · exact ⟨h3, h4.1⟩
      · exact h1 j
    · intro j k
      refine Fin.cases ?_ (fun j => ?_) j <;> refine Fin.cases ?_ (fun k => ?_) k
      · intro h; exact absurd rfl h
      · intro _; exact h4.2 k (Finset.mem_univ k)
      · intro _; exact (h4.2 j (Finset.mem_univ j)).symm
      · intro h; exact h2 j k (fun he => h (by rw [he]))

/-- `_triangulate` has a result (and never fails) if the base triangulator and the splitter have one. -/
theorem triangulate_exists [Module.Finite K W] (A : Params D K) (hD : D ≤ 64) (hw : World D x h S₀) (hA : ParamsOk A x h S₀)
    (hbase : ∀ S (used : Finset Nat), infPts D ⊆ S → S ⊆ S₀ → ∃ T, A.base S T ∧ Disjoint T.range used)
    (hsplit : ∀ len S, infPts D ⊆ S → S ⊆ S₀ → A.cutoff < S.card → ∃ ps, A.split len S ps) :
    ∀ (n len : Nat) (S used : Finset Nat), A.depth - (len - 1) = n → 1 ≤ len → infPts D ⊆ S → S ⊆ S₀ →
      ∃ T, Triangulate A len S T ∧ Disjoint T.range used := by
  intro n
  induction n with
  | zero =>
    intro len S used hn hl hI hS
    obtain ⟨T, h1, h2⟩ := hbase S used hI hS
    exact ⟨T, .base len S T (by omega) h1, h2⟩
  | succ n ih =>
    intro len S used hn hl hI hS
    by_cases hc : len - 1 < A.depth ∧ A.cutoff < S.card
    swap
    · obtain ⟨T, h1, h2⟩ := hbase S used hI hS
      exact ⟨T, .base len S T hc h1, h2⟩
    have hdep := hA.depth
    obtain ⟨ps, hps⟩ := hsplit len S hI hS hc.2
    have hpart := part_bounds hD hw hA hI hS hc.2 hps
    obtain ⟨T0, hT0, hdis⟩ := exists_disjoint_family ps.length (fun j T => Triangulate A (len + 1) ps[j].points T)
      (fun j used => ih (len + 1) ps[j].points used (by omega) (by omega) (hpart j).1 ((hpart j).2.trans hS)) used
    have h0 : ∀ j : Fin ps.length, IsDT D x h ps[j].points (T0 j) ∧ (T0 j).MarksOk ∧
        (T0 j).mark ≤ 6 * (A.depth - len) := by
      intro j
      have := triangulate_correct A hD hw hA _ _ _ (hT0 j).1 (by omega) (hpart j).1 ((hpart j).2.trans hS)
      rw [show len + 1 - 1 = len by omega] at this
      exact this
    have hge := fun j : Fin ps.length => C46_getEdge_exists D (T0 j) (meetsAny A ps T0 j) (h0 j).1.wf (h0 j).2.1
      (by have := (h0 j).2.2; omega)
    choose T1 eS' eP' hge using hge
    let eS : Nat → Finset Nat := fun i => if hi : i < ps.length then eS' ⟨i, hi⟩ else ∅
    let eP : Nat → Finset Nat := fun i => if hi : i < ps.length then eP' ⟨i, hi⟩ else ∅
    have heS : ∀ j : Fin ps.length, eS j = eS' j := fun j => dif_pos j.2
    have heP : ∀ j : Fin ps.length, eP j = eP' j := fun j => dif_pos j.2
    obtain ⟨hIV, hVS, hT1m, hnode⟩ := node_hyp (eS := eS) (eP := eP) hD hw hA hI hS hc.2 hps
      (fun j => ⟨(h0 j).1, (h0 j).2.1, by have := (h0 j).2.2; omega⟩)
      (fun j => by rw [heS, heP]; exact hge j)
    set V := (Finset.range ps.length).biUnion eP with hV
    obtain ⟨E, hE, hEu⟩ : ∃ E, (if A.parEdge = true then Triangulate A (len + 1) V E else A.base V E) ∧
        Disjoint E.range (used ∪ Finset.univ.biUnion fun j => (T0 j).range) := by
      by_cases hpe : A.parEdge = true
      · simp only [if_pos hpe]
        exact ih (len + 1) V _ (by omega) (by omega) hIV (hVS.trans hS)
      · simp only [if_neg hpe]
        exact hbase V _ hIV (hVS.trans hS)
    rw [Finset.disjoint_union_right, Finset.disjoint_biUnion_right] at hEu
    have hEdt : IsDT D x h V E ∧ E.MarksOk ∧ E.mark ≤ 6 * (A.depth - len) := by
      by_cases hpe : A.parEdge = true
      · rw [if_pos hpe] at hE
        have := triangulate_correct A hD hw hA _ _ _ hE (by omega) hIV (hVS.trans hS)
        rw [show len + 1 - 1 = len by omega] at this
        exact this
      · rw [if_neg hpe] at hE
        obtain ⟨a1, a2, a3⟩ := hA.base V E hIV (hVS.trans hS) hE
        exact ⟨a1, a2, by omega⟩
    have hdE : ∀ j, Disjoint E.range (T1 j).range := fun j => by
      rw [(hT1m j).1]; exact hEu.2 j (Finset.mem_univ j)
    have hd : ∀ j k, j ≠ k → Disjoint (T1 j).range (T1 k).range := fun j k hjk => by
      rw [(hT1m j).1, (hT1m k).1]; exact hdis j k hjk
    have hnode := hnode E hEdt.1 hdE hd
    have hmarks : ∀ j, (T1 j).MarksOk ∧ (T1 j).mark + 4 < 256 := by
      intro j
      refine ⟨(hT1m j).2.1, ?_⟩
      have e1 := (hT1m j).2.2
      have e2 := (h0 j).2.2
      omega
    have hmarkE : E.MarksOk ∧ E.mark + 4 < 256 := ⟨hEdt.2.1, by have := hEdt.2.2; omega⟩
    have hin := hnode.mergeIn hmarks hmarkE
    have hne : ps ≠ [] := by
      rintro rfl
      obtain ⟨j, _⟩ := (hnode.split.two)
      simp_all
    obtain ⟨R, hR⟩ := C49_mergeTriangulation_exists A.hash ps (List.ofFn T1) ((Finset.range ps.length).biUnion eS) E
      hin (by simpa using hne) (by
        intro i hi
        have hl := hEdt.1.len hw.dim hi
        refine ⟨(E.vs i)[0], List.getElem?_eq_getElem (by omega), ?_⟩
        have hv : (E.vs i)[0]'(by omega) ∈ S := hVS ((hEdt.1.sound i hi).1 (List.mem_toFinset.mpr (List.getElem_mem _)))
        have hmh := hnode.split.mergeHyp hD (hw.mono hS hI)
        obtain ⟨j, _⟩ := hmh.two
        rcases (hmh.mem_S _).mp hv with hv | ⟨k, hk⟩
        · exact ⟨ps[j], List.getElem_mem _, (hpart j).1 hv⟩
        · exact ⟨ps[k], List.getElem_mem _, (Finset.mem_filter.mp hk).1⟩)
      (by
        intro B hB i hi
        rcases List.mem_cons.mp hB with rfl | hB
        · exact hEdt.1.nlen i hi
        · obtain ⟨j, rfl⟩ := List.mem_ofFn.mp hB
          exact (hnode.dt j).nlen i hi)
    refine ⟨R, .node len S hc ps hps (List.ofFn T0) (by simp) ?_ (List.ofFn T1) (by simp) eS eP ?_ E
      (fun hpe => by rw [if_pos hpe] at hE; exact hE) (fun hpe => by rw [if_neg (by simp [hpe])] at hE; exact hE)
      hin.disj R hR, ?_⟩
    · intro i p T hp hT
      obtain ⟨hi, rfl⟩ := List.getElem?_eq_some_iff.mp hp
      rw [List.getElem?_ofFn, dif_pos hi] at hT
      obtain rfl := Option.some.inj hT
      exact (hT0 ⟨i, hi⟩).1
    · intro i T T' hT hT'
      have hi : i < ps.length := by
        by_contra hge'
        rw [List.getElem?_ofFn, dif_neg hge'] at hT
        exact absurd hT (by simp)
      rw [List.getElem?_ofFn, dif_pos hi] at hT hT'
      obtain rfl := Option.some.inj hT
      obtain rfl := Option.some.inj hT'
      have := hge ⟨i, hi⟩
      rw [← heS, ← heP] at this
      exact this
    · obtain ⟨M, ins, wu, HM, get, ns, mks, _, _, rfl⟩ := merged hin hR
      rw [Finset.disjoint_left]
      intro i hi
      obtain ⟨B, hB, hiB⟩ := (HM.range i).mp hi
      rcases List.mem_cons.mp hB with rfl | hB
      · exact Finset.disjoint_left.mp hEu.1 hiB
      · obtain ⟨j, rfl⟩ := List.mem_ofFn.mp hB
        rw [(hT1m j).1] at hiB
        exact Finset.disjoint_left.mp (hT0 j).2 hiB

/-- There is a triangulation object that represents the Delaunay triangulation, with ids from `o` onwards. -/
theorem exists_isDT_at [Module.Finite K W] (hw : World D x h S) (o : Nat) (ho : ∀ k < 2 ^ S.card, o + k ≠ sINF) :
    ∃ T, IsDT D x h S T ∧ T.MarksOk ∧ T.mark = 0 ∧ ∀ i ∈ T.range, o ≤ i ∧ i < o + 2 ^ S.card := by
  classical
  let L : List (Finset Nat) := (S.powerset.filter fun t => IsDel x h S t).toList
  have hL : ∀ t, t ∈ L ↔ IsDel x h S t := by
    intro t
    rw [Finset.mem_toList, Finset.mem_filter, Finset.mem_powerset]
    exact ⟨fun h => h.2, fun h => ⟨h.1, h⟩⟩
  have hnd : L.Nodup := Finset.nodup_toList _
  have hlen : L.length ≤ 2 ^ S.card := by
    rw [Finset.length_toList, ← Finset.card_powerset]
    exact Finset.card_filter_le _ _
  let g : Nat → Finset Nat := fun i => L.getD (i - o) ∅
  let vs : Nat → List Nat := fun i => (g i).sort (· ≤ ·)
  let nb : Nat → Nat → Nat := fun i d =>
    if hex : ∃ k, k < L.length ∧ Across (g i) ((vs i).getD d 0) (L.getD k ∅) then o + hex.choose else sINF
  let T : Tri :=
    { range := (Finset.range L.length).image (o + ·)
      id := fun i => i
      vs := vs
      ns := fun i => (List.range (D + 1)).map (nb i)
      mks := fun _ => 0
      hull := ((List.range L.length).map (o + ·)).filter fun i => !vsFinite D (vs i)
      mark := 0 }
  have hr : ∀ i, i ∈ T.range ↔ ∃ k, k < L.length ∧ i = o + k := by
    intro i
    simp only [T, Finset.mem_image, Finset.mem_range]
    constructor
    · rintro ⟨k, h1, h2⟩; exact ⟨k, h1, h2.symm⟩
    · rintro ⟨k, h1, h2⟩; exact ⟨k, h1, h2.symm⟩
  have hc : ∀ i, T.contains i = true ↔ ∃ k, k < L.length ∧ i = o + k := by
    intro i
    rw [Tri.contains_iff, hr]
    constructor
    · exact fun h => h.1
    · rintro ⟨k, h1, rfl⟩
      exact ⟨⟨k, h1, rfl⟩, ho k (by omega)⟩
  have hg : ∀ k, g (o + k) = L.getD k ∅ := by intro k; simp [g]
  have hgm : ∀ k, k < L.length → L.getD k ∅ ∈ L := by
    intro k hk
    rw [List.getD_eq_getElem _ _ hk]
    exact List.getElem_mem hk
  have hvs : ∀ i, (T.vs i).toFinset = g i := fun i => Finset.sort_toFinset _ _
  refine ⟨T, ⟨?_, ?_, ?_, ?_, fun _ _ => rfl, ?_, ?_, ?_⟩, fun _ _ => le_refl _, rfl, ?_⟩
  · intro i hi
    obtain ⟨k, hk, rfl⟩ := (hc i).mp hi
    rw [hvs, hg]
    exact (hL _).mp (hgm k hk)
  · intro t ht
    obtain ⟨k, hk, rfl⟩ := List.getElem_of_mem ((hL t).mpr ht)
    refine ⟨o + k, (hc _).mpr ⟨k, hk, rfl⟩, ?_⟩
    rw [hvs, hg, List.getD_eq_getElem _ _ hk]
  · intro i j hi hj he
    obtain ⟨k, hk, rfl⟩ := (hc i).mp hi
    obtain ⟨l, hl, rfl⟩ := (hc j).mp hj
    rw [hvs, hvs, hg, hg, List.getD_eq_getElem _ _ hk, List.getD_eq_getElem _ _ hl] at he
    rw [(List.Nodup.getElem_inj_iff hnd).mp he]
  · intro i _
    exact (Finset.sortedLT_sort _).pairwise
  · intro i _
    simp [T]
  · intro i hi d hd
    have hnd : (T.ns i).getD d 0 = nb i d := by
      simp [T, List.getD_eq_getElem, hd]
    rw [hnd, hvs]
    by_cases hex : ∃ k, k < L.length ∧ Across (g i) ((vs i).getD d 0) (L.getD k ∅)
    · have he : nb i d = o + hex.choose := dif_pos hex
      obtain ⟨h1, h2⟩ := hex.choose_spec
      refine Or.inl ⟨(hc _).mpr ⟨_, h1, he⟩, ?_⟩
      rw [hvs, he, hg]
      exact h2
    · refine Or.inr ⟨dif_neg hex, fun t ht ha => ?_⟩
      obtain ⟨k, hk, rfl⟩ := List.getElem_of_mem ((hL t).mpr ht)
      exact hex ⟨k, hk, by rw [List.getD_eq_getElem _ _ hk]; exact ha⟩
  · refine ⟨((List.nodup_range).map (fun a b h => by simpa using h)).filter _, fun i => ?_⟩
    rw [hc]
    simp only [T, List.mem_filter, List.mem_map, List.mem_range, Bool.not_eq_true']
    refine and_congr_left fun _ => ?_
    constructor
    · rintro ⟨k, h1, h2⟩; exact ⟨k, h1, h2.symm⟩
    · rintro ⟨k, h1, h2⟩; exact ⟨k, h1, h2.symm⟩
  · intro i hi
    obtain ⟨k, hk, rfl⟩ := (hr i).mp hi
    omega

/-- There is a triangulation object that represents the Delaunay triangulation, with ids that are not yet
used: the assumption on the base triangulator can be fulfilled. -/
theorem exists_isDT [Module.Finite K W] (hw : World D x h S) (used : Finset Nat) :
    ∃ T, IsDT D x h S T ∧ T.MarksOk ∧ T.mark = 0 ∧ Disjoint T.range used := by
  obtain ⟨T, h1, h2, h3, h4⟩ := exists_isDT_at hw (used.sup _root_.id + 2 ^ 64 + 1) (fun k _ => by simp only [sINF]; omega)
  refine ⟨T, h1, h2, h3, ?_⟩
  rw [Finset.disjoint_left]
  intro i hi hu
  have h5 := (h4 i hi).1
  have h6 := Finset.le_sup (f := _root_.id) hu
  simp only [_root_.id] at h6
  omega

end DC
end Verif
