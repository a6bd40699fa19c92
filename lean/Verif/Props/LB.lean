import Verif.Model.LB
import Verif.Props.Delaunay
import Verif.Props.TreeChk

/-!
# C80: the load-balanced triangulator computes the Delaunay triangulation
-/
namespace Verif
namespace DC
open Del

section
variable {K W : Type} [Field K] [LinearOrder K] [IsStrictOrderedRing K] [AddCommGroup W] [Module K W]
variable {D : Nat} {x : Nat → W} {h : Nat → K} {S S₀ : Finset Nat}

/-- The end of one level of the recursion, from the edge triangulation on. -/
theorem level_correct [Module.Finite K W] (hD : D ≤ 64) (hw : World D x h S₀) (hash : Nat → BitVec 32)
    (hI : infPts D ⊆ S) (hS : S ⊆ S₀) {ps : List (Part.Partition D K)} (hsp : SplitOk x S ps) {inter : List Nat → Nat → Bool}
    (hint : ∀ k : Fin ps.length, ∀ vs : List Nat, vs.Nodup → vs.toFinset ⊆ S₀ → IsSimp (K := K) x vs.toFinset →
      ∀ v ∈ finPts ps[k], v ∈ S → h v < interp x h vs.toFinset (x v) → inter vs k = true) {M : Nat} (hM : M + 6 < 256)
    {dts dts' : List Tri} (hlen : dts.length = ps.length) (hlen' : dts'.length = ps.length)
    (h0 : ∀ (j : Nat) (p : Part.Partition D K) (T : Tri), ps[j]? = some p → dts[j]? = some T →
      IsDT D x h p.points T ∧ T.MarksOk ∧ T.mark ≤ M) {eS eP : Nat → Finset Nat}
    (hedge : ∀ (i : Nat) (T T' : Tri), dts[i]? = some T → dts'[i]? = some T' →
      GetEdge D T (fun s => meetsOther ps.length i (inter (T.vs s))) T' (eS i) (eP i)) :
    infPts D ⊆ (Finset.range ps.length).biUnion eP ∧ (Finset.range ps.length).biUnion eP ⊆ S ∧
    ∀ E, IsDT D x h ((Finset.range ps.length).biUnion eP) E ∧ E.MarksOk ∧ E.mark ≤ M →
      (E :: dts').Pairwise (fun a b => Disjoint a.range b.range) →
      ∀ R, MergeTri hash ps dts' ((Finset.range ps.length).biUnion eS) E R →
        IsDT D x h S R ∧ R.MarksOk ∧ R.mark ≤ M + 6 := by
  let T0 : Fin ps.length → Tri := fun j => dts[j.val]'(by rw [hlen]; exact j.2)
  let T1 : Fin ps.length → Tri := fun j => dts'[j.val]'(by rw [hlen']; exact j.2)
  have hT0 : ∀ j : Fin ps.length, dts[j.val]? = some (T0 j) := fun j => List.getElem?_eq_getElem _
  have hT1 : ∀ j : Fin ps.length, dts'[j.val]? = some (T1 j) := fun j => List.getElem?_eq_getElem _
  have h0 : ∀ j : Fin ps.length, IsDT D x h ps[j].points (T0 j) ∧ (T0 j).MarksOk ∧ (T0 j).mark ≤ M :=
    fun j => h0 j ps[j] (T0 j) (List.getElem?_eq_getElem j.2) (hT0 j)
  have hge : ∀ j : Fin ps.length, GetEdge D (T0 j) (meetsGen ps.length inter T0 j) (T1 j) (eS j) (eP j) :=
    fun j => hedge j (T0 j) (T1 j) (hT0 j) (hT1 j)
  obtain ⟨hIV, hVS, hT1m, hnode⟩ := node_hyp_gen hD hw hI hS hsp hint
    (fun j => ⟨(h0 j).1, (h0 j).2.1, by have := (h0 j).2.2; omega⟩) hge
  refine ⟨hIV, hVS, fun E hEdt hdisj R hm => ?_⟩
  obtain ⟨hd1, hd2⟩ := List.pairwise_cons.mp hdisj
  have hof : List.ofFn T1 = dts' := by
    apply List.ext_getElem (by simp [hlen'])
    intro i a b
    simp [T1]
  have hnode := hnode E hEdt.1 (fun j => hd1 (T1 j) (List.getElem_mem _)) (by
    intro j k hjk
    rcases lt_or_gt_of_ne (fun h => hjk (Fin.ext h) : j.val ≠ k.val) with hlt | hlt
    · exact List.pairwise_iff_getElem.mp hd2 j k _ _ hlt
    · exact (List.pairwise_iff_getElem.mp hd2 k j _ _ hlt).symm)
  have hmarks : ∀ j, (T1 j).MarksOk ∧ (T1 j).mark + 4 < 256 := by
    intro j
    refine ⟨(hT1m j).2.1, ?_⟩
    have e1 := (hT1m j).2.2
    have e2 := (h0 j).2.2
    omega
  have hmarkE : E.MarksOk ∧ E.mark + 4 < 256 := ⟨hEdt.2.1, by have := hEdt.2.2; omega⟩
  rw [← hof] at hm
  refine ⟨hnode.result hmarks hmarkE hm, ?_⟩
  obtain ⟨r1, B, hB, r2⟩ := mergeTri_marks (hnode.mergeIn hmarks hmarkE) hm
  refine ⟨r1, r2.trans ?_⟩
  rcases List.mem_cons.mp hB with rfl | hB
  · have := hEdt.2.2; omega
  · obtain ⟨j, rfl⟩ := List.mem_ofFn.mp hB
    have e1 := (hT1m j).2.2
    have e2 := (h0 j).2.2
    omega

/-- What C80 needs of a node with several children: the children are a partition into separated parts, two of which have
finite points, and the checkers find circumspheres that contain a point of the part. -/
def NodeOk (A : LBParams D K) (x : Nat → W) (h : Nat → K) (S₀ : Finset Nat) (l : List (PTree (Chk D K))) : Prop :=
  ∃ pcs, PTree.toOld l = some pcs ∧ SplitOk x (PTree.collectAll l) (pcs.map Prod.fst) ∧
    ∀ pc ∈ pcs, ∀ vs : List Nat, vs.Nodup → vs.toFinset ⊆ S₀ → IsSimp (K := K) x vs.toFinset → ∀ v ∈ finPts pc.1,
      v ∈ PTree.collectAll l → h v < interp x h vs.toFinset (x v) → pc.2.meets (A.cs vs) vs = true

/-- All nodes with several children are as needed. -/
def TreeOk (A : LBParams D K) (x : Nat → W) (h : Nat → K) (S₀ : Finset Nat) (t : PTree (Chk D K)) : Prop :=
  ∀ p c l, PTree.sub t p = some (.node c l) → 1 < l.length → NodeOk A x h S₀ l

/-- The base triangulators return Delaunay triangulations whose mark is at most `B`. -/
def LBBaseOk (A : LBParams D K) (x : Nat → W) (h : Nat → K) (S₀ : Finset Nat) (B : Nat) : Prop :=
  ∀ par len S T, par = A.parBase ∨ par = A.parEdge → 1 ≤ len → infPts D ⊆ S → S ⊆ S₀ → A.base par len S T →
    IsDT D x h S T ∧ T.MarksOk ∧ T.mark ≤ B

omit [LinearOrder K] [Field K] [IsStrictOrderedRing K] in
theorem toOldFrom_get : ∀ (l : List (PTree (Chk D K))) (k : Nat) (r : List (Part.Partition D K × Chk D K)),
    PTree.toOldFrom k l = some r → r.length = l.length ∧ ∀ (i : Nat) (t : PTree (Chk D K)), l[i]? = some t →
      ∃ c, t.chk = some c ∧ r[i]? = some (⟨k + i, t.collectIds, c.bounds⟩, c) := by
  intro l k r h
  by_cases hn : ∀ t ∈ l, t.chk ≠ none
  · obtain ⟨r', h1, h2, h3⟩ := PTree.toOldFrom_some l k hn
    rw [h1] at h
    cases h
    exact ⟨h2, h3⟩
  · exfalso
    push_neg at hn
    induction l generalizing k r with
    | nil => simp at hn
    | cons t l ih =>
      rw [PTree.toOldFrom] at h
      cases hc : t.chk with
      | none => rw [hc] at h; simp at h
      | some c =>
        rw [hc] at h
        obtain ⟨r', hr', _⟩ := Option.map_eq_some_iff.mp h
        refine ih (k + 1) r' hr' ?_
        obtain ⟨t', ht', hn'⟩ := hn
        rcases List.mem_cons.mp ht' with rfl | ht'
        · rw [hc] at hn'; simp at hn'
        · exact ⟨t', ht', hn'⟩

theorem collect_sub {C : Type} {t : PTree C} {p : List Nat} {s : PTree C} (hs : PTree.sub t p = some s) :
    s.collectIds ⊆ t.collectIds := by
  induction p generalizing t with
  | nil => rw [PTree.sub_nil] at hs; cases hs; exact Finset.Subset.refl _
  | cons i q ih =>
    cases t with
    | leaf c ids => simp at hs
    | node c l =>
      rw [PTree.sub_node] at hs
      cases ht : l[i]? with
      | none => rw [ht] at hs; simp at hs
      | some t' =>
        rw [ht] at hs
        refine (ih hs).trans fun v hv => ?_
        rw [PTree.collectIds, PTree.mem_collectAll]
        obtain ⟨p, ids, h1⟩ := (PTree.mem_collectIds t' v).mp hv
        exact ⟨t', List.mem_of_getElem? ht, p, ids, h1⟩

/-- Result of `recursiveTriangulate` for any subtree, for all interleavings. -/
theorem lb_correct [Module.Finite K W] (A : LBParams D K) (hD : D ≤ 64) (hw : World D x h S₀) {B : Nat}
    (hB : LBBaseOk A x h S₀ B) (len : Nat) (t : PTree (Chk D K)) (T : Tri) (hT : LBTri A len t T) :
    ∀ H, (∀ p s, PTree.sub t p = some s → p.length ≤ H) → B + 6 * H < 256 → 1 ≤ len → infPts D ⊆ t.collectIds →
      t.collectIds ⊆ S₀ → TreeOk A x h S₀ t → IsDT D x h t.collectIds T ∧ T.MarksOk ∧ T.mark ≤ B + 6 * H := by
  induction hT with
  | leaf len c S T hb =>
    intro H _ _ hl hI hS _
    obtain ⟨h1, h2, h3⟩ := hB _ _ _ _ (Or.inl rfl) hl hI hS hb
    exact ⟨h1, h2, by omega⟩
  | single len c c' S T hb =>
    intro H _ _ hl hI hS _
    have he : (PTree.node (some c) [PTree.leaf c' S]).collectIds = S := by
      simp [PTree.collectIds, PTree.collectAll]
    rw [he] at hI hS ⊢
    obtain ⟨h1, h2, h3⟩ := hB _ _ _ _ (Or.inl rfl) hl hI hS hb
    exact ⟨h1, h2, by omega⟩
  | node len c l hl cps hcp dts hlen hrec pcs hpcs dts' hlen' eS eP hedge E hE hdisj R hm ih =>
    intro H hH hBH hln hI hS ht
    obtain ⟨pcs', hp1, hsp, hmeet⟩ := ht [] _ _ (PTree.sub_nil _) hl
    obtain rfl : pcs = pcs' := by rw [hpcs] at hp1; exact Option.some.inj hp1
    obtain ⟨hpl, hget⟩ := toOldFrom_get l 0 pcs hpcs
    have hcps : cps = l := by
      by_cases hc : ∀ t ∈ l, PTree.Checked t
      · rw [(PTree.copyAll_spec l).1 hc] at hcp; exact (Option.some.inj hcp).symm
      · rw [(PTree.copyAll_spec l).2 (by simpa using hc)] at hcp; simp at hcp
    subst hcps
    have hH1 : 1 ≤ H := by
      obtain ⟨t0, ht0⟩ : ∃ t0, cps[0]? = some t0 := ⟨cps[0], List.getElem?_eq_getElem _⟩
      exact hH [0] t0 (by rw [PTree.sub_node, ht0]; rfl)
    obtain ⟨H, rfl⟩ : ∃ H', H = H' + 1 := ⟨H - 1, by omega⟩
    have hpsl : (pcs.map Prod.fst).length = pcs.length := List.length_map ..
    have hwS := hw.mono hS hI
    have hmh := hsp.mergeHyp hD hwS
    have hpart : ∀ (j : Nat) (t : PTree (Chk D K)), cps[j]? = some t → infPts D ⊆ t.collectIds ∧ t.collectIds ⊆ S₀ := by
      intro j t hj
      refine ⟨?_, (collect_sub (t := .node (some c) cps) (p := [j]) (by rw [PTree.sub_node, hj]; rfl)).trans hS⟩
      obtain ⟨c', _, h2⟩ := hget j t hj
      have := hsp.points hD (p := ⟨0 + j, t.collectIds, c'.bounds⟩)
        (List.mem_map.mpr ⟨_, List.mem_of_getElem? h2, rfl⟩)
      simp only at this
      rw [this]
      exact Finset.subset_union_left
    have key := level_correct hD hw A.hash hI hS hsp (inter := A.interPart pcs) (by
        intro k vs hnd hvs hsimp v hv hvS hlt
        have hk : k.val < pcs.length := lt_of_lt_of_eq k.2 hpsl
        simp only [LBParams.interPart, List.getElem?_eq_getElem hk]
        refine hmeet _ (List.getElem_mem hk) vs hnd hvs hsimp v ?_ hvS hlt
        simpa using hv) (M := B + 6 * H) (by omega) (dts := dts) (dts' := dts') (by rw [hpsl, hlen, hpl]) (by rw [hpsl, hlen', hpl]) (by
        intro j p T hj hTj
        have hjl : j < cps.length := by
          rw [← hlen]; exact (List.getElem?_eq_some_iff.mp hTj).1
        obtain ⟨c', _, h2⟩ := hget j cps[j] (List.getElem?_eq_getElem hjl)
        rw [List.getElem?_map, h2] at hj
        obtain rfl := Option.some.inj hj
        have hj' : cps[j]? = some cps[j] := List.getElem?_eq_getElem hjl
        refine ih j cps[j] T hj' hTj H ?_ (by omega) (by omega) (hpart j _ hj').1 (hpart j _ hj').2 ?_
        · intro p s hs
          have := hH (j :: p) s (by rw [PTree.sub_node, hj']; exact hs)
          simpa using this
        · intro p c l hs
          exact ht (j :: p) c l (by rw [PTree.sub_node, hj']; exact hs)) (eS := eS) (eP := eP) (by rw [hpsl]; exact hedge)
    rw [hpsl] at key
    obtain ⟨hIV, hVS, key⟩ := key
    obtain ⟨r1, r2, r3⟩ := key E (hEdt hB hE hIV (hVS.trans hS)) hdisj R hm
    exact ⟨r1, r2, by omega⟩
where
  hEdt {A : LBParams D K} {B : Nat} (hB : LBBaseOk A x h S₀ B) {len : Nat} {V : Finset Nat} {E : Tri}
      (hE : A.base A.parEdge (len + 1) V E) (hI : infPts D ⊆ V) (hS : V ⊆ S₀) {H : Nat} :
      IsDT D x h V E ∧ E.MarksOk ∧ E.mark ≤ B + 6 * H := by
    obtain ⟨h1, h2, h3⟩ := hB _ _ _ _ (Or.inr rfl) (by omega) hI hS hE
    exact ⟨h1, h2, by omega⟩

/-! ### There is a result -/

/-- One level of the recursion has a result, with simplex ids that are not yet used. -/
theorem level_exists [Module.Finite K W] (hD : D ≤ 64) (hw : World D x h S₀) (hash : Nat → BitVec 32)
    (hI : infPts D ⊆ S) (hS : S ⊆ S₀) {ps : List (Part.Partition D K)} (hsp : SplitOk x S ps) {inter : List Nat → Nat → Bool}
    (hint : ∀ k : Fin ps.length, ∀ vs : List Nat, vs.Nodup → vs.toFinset ⊆ S₀ → IsSimp (K := K) x vs.toFinset →
      ∀ v ∈ finPts ps[k], v ∈ S → h v < interp x h vs.toFinset (x v) → inter vs k = true) {M : Nat} (hM : M + 6 < 256)
    {T0 : Fin ps.length → Tri} (used : Finset Nat)
    (h0 : ∀ j : Fin ps.length, (IsDT D x h ps[j].points (T0 j) ∧ (T0 j).MarksOk ∧ (T0 j).mark ≤ M) ∧
      Disjoint (T0 j).range used)
    (hdis : ∀ j k, j ≠ k → Disjoint (T0 j).range (T0 k).range) (base : Finset Nat → Tri → Prop)
    (hb : ∀ V, infPts D ⊆ V → V ⊆ S₀ → ∀ E, base V E → IsDT D x h V E ∧ E.MarksOk ∧ E.mark ≤ M)
    (hbe : ∀ V (used : Finset Nat), infPts D ⊆ V → V ⊆ S₀ → ∃ E, base V E ∧ Disjoint E.range used) :
    ∃ (T1 : Fin ps.length → Tri) (eS eP : Nat → Finset Nat) (E R : Tri),
      (∀ j, GetEdge D (T0 j) (fun s => meetsOther ps.length j (inter ((T0 j).vs s))) (T1 j) (eS j) (eP j)) ∧
      base ((Finset.range ps.length).biUnion eP) E ∧
      (E :: List.ofFn T1).Pairwise (fun a b => Disjoint a.range b.range) ∧
      MergeTri hash ps (List.ofFn T1) ((Finset.range ps.length).biUnion eS) E R ∧ Disjoint R.range used := by
  have hwS := hw.mono hS hI
  have hmh := hsp.mergeHyp hD hwS
  have hpart : ∀ j : Fin ps.length, infPts D ⊆ ps[j].points ∧ ps[j].points ⊆ S := by
    intro j
    have := hsp.points hD (p := ps[j]) (List.getElem_mem j.2)
    refine ⟨by rw [this]; exact Finset.subset_union_left, ?_⟩
    rw [this]
    exact hmh.partSub j
  have hge := fun j : Fin ps.length => C46_getEdge_exists D (T0 j) (meetsGen ps.length inter T0 j) (h0 j).1.1.wf (h0 j).1.2.1
    (by have := (h0 j).1.2.2; omega)
  choose T1 eS' eP' hge using hge
  let eS : Nat → Finset Nat := fun i => if hi : i < ps.length then eS' ⟨i, hi⟩ else ∅
  let eP : Nat → Finset Nat := fun i => if hi : i < ps.length then eP' ⟨i, hi⟩ else ∅
  have heS : ∀ j : Fin ps.length, eS j = eS' j := fun j => dif_pos j.2
  have heP : ∀ j : Fin ps.length, eP j = eP' j := fun j => dif_pos j.2
  obtain ⟨hIV, hVS, hT1m, hnode⟩ := node_hyp_gen (eS := eS) (eP := eP) hD hw hI hS hsp hint
    (fun j => ⟨(h0 j).1.1, (h0 j).1.2.1, by have := (h0 j).1.2.2; omega⟩)
    (fun j => by rw [heS, heP]; exact hge j)
  set V := (Finset.range ps.length).biUnion eP with hV
  obtain ⟨E, hE, hEu⟩ := hbe V (used ∪ Finset.univ.biUnion fun j => (T0 j).range) hIV (hVS.trans hS)
  rw [Finset.disjoint_union_right, Finset.disjoint_biUnion_right] at hEu
  have hEdt := hb V hIV (hVS.trans hS) E hE
  have hdE : ∀ j, Disjoint E.range (T1 j).range := fun j => by
    rw [(hT1m j).1]; exact hEu.2 j (Finset.mem_univ j)
  have hd : ∀ j k, j ≠ k → Disjoint (T1 j).range (T1 k).range := fun j k hjk => by
    rw [(hT1m j).1, (hT1m k).1]; exact hdis j k hjk
  have hnode := hnode E hEdt.1 hdE hd
  have hmarks : ∀ j, (T1 j).MarksOk ∧ (T1 j).mark + 4 < 256 := by
    intro j
    refine ⟨(hT1m j).2.1, ?_⟩
    have e1 := (hT1m j).2.2
    have e2 := (h0 j).1.2.2
    omega
  have hmarkE : E.MarksOk ∧ E.mark + 4 < 256 := ⟨hEdt.2.1, by have := hEdt.2.2; omega⟩
  have hin := hnode.mergeIn hmarks hmarkE
  have hne : ps ≠ [] := by
    rintro rfl
    obtain ⟨j, _⟩ := (hnode.split.two)
    simp_all
  obtain ⟨R, hR⟩ := C49_mergeTriangulation_exists hash ps (List.ofFn T1) ((Finset.range ps.length).biUnion eS) E
    hin (by simpa using hne) (by
      intro i hi
      have hl := hEdt.1.len hw.dim hi
      refine ⟨(E.vs i)[0], List.getElem?_eq_getElem (by omega), ?_⟩
      have hv : (E.vs i)[0]'(by omega) ∈ S := hVS ((hEdt.1.sound i hi).1 (List.mem_toFinset.mpr (List.getElem_mem _)))
      obtain ⟨j, _⟩ := hmh.two
      rcases (hmh.mem_S _).mp hv with hv | ⟨k, hk⟩
      · exact ⟨ps[j], List.getElem_mem _, (hpart j).1 hv⟩
      · exact ⟨ps[k], List.getElem_mem _, (Finset.mem_filter.mp hk).1⟩)
    (by
      intro B hB i hi
      rcases List.mem_cons.mp hB with rfl | hB
      · exact hEdt.1.nlen i hi
      · obtain ⟨j, rfl⟩ := List.mem_ofFn.mp hB
        exact (hnode.dt j).nlen i hi)
  refine ⟨T1, eS, eP, E, R, fun j => by rw [heS, heP]; exact hge j, hE, hin.disj, hR, ?_⟩
  obtain ⟨M, ins, wu, HM, get, ns, mks, _, _, rfl⟩ := merged hin hR
  rw [Finset.disjoint_left]
  intro i hi
  obtain ⟨B, hB, hiB⟩ := (HM.range i).mp hi
  rcases List.mem_cons.mp hB with rfl | hB
  · exact Finset.disjoint_left.mp hEu.1 hiB
  · obtain ⟨j, rfl⟩ := List.mem_ofFn.mp hB
    rw [(hT1m j).1] at hiB
    exact Finset.disjoint_left.mp (h0 j).2 hiB

/-- No inner node is without children, and the only child of a node is a leaf. -/
def Shape {C : Type} (t : PTree C) : Prop :=
  ∀ p c l, PTree.sub t p = some (.node c l) → l ≠ [] ∧ ∀ t', l = [t'] → ∃ c' ids, t' = .leaf c' ids

/-- `recursiveTriangulate` has a result if the base triangulators have one. -/
theorem lb_exists [Module.Finite K W] (A : LBParams D K) (hD : D ≤ 64) (hw : World D x h S₀) {B : Nat}
    (hB : LBBaseOk A x h S₀ B)
    (hbase : ∀ par len S (used : Finset Nat), par = A.parBase ∨ par = A.parEdge → 1 ≤ len → infPts D ⊆ S → S ⊆ S₀ →
      ∃ T, A.base par len S T ∧ Disjoint T.range used) :
    ∀ (H len : Nat) (t : PTree (Chk D K)) (used : Finset Nat), (∀ p s, PTree.sub t p = some s → p.length ≤ H) →
      B + 6 * H < 256 → 1 ≤ len → infPts D ⊆ t.collectIds → t.collectIds ⊆ S₀ → TreeOk A x h S₀ t → PTree.Checked t →
      Shape t → ∃ T, LBTri A len t T ∧ Disjoint T.range used := by
  intro H
  induction H with
  | zero =>
    intro len t used hH _ hl hI hS _ hck hsh
    cases t with
    | leaf c ids =>
      obtain ⟨c, rfl⟩ := Option.ne_none_iff_exists'.mp (hck [] _ (PTree.sub_nil _))
      obtain ⟨T, h1, h2⟩ := hbase A.parBase len ids used (Or.inl rfl) hl hI hS
      exact ⟨T, .leaf len c ids T h1, h2⟩
    | node c l =>
      obtain ⟨h1, _⟩ := hsh [] c l (PTree.sub_nil _)
      obtain ⟨t0, ht0⟩ : ∃ t0, l[0]? = some t0 :=
        ⟨l[0]'(List.length_pos_of_ne_nil h1), List.getElem?_eq_getElem _⟩
      have := hH [0] t0 (by rw [PTree.sub_node, ht0]; rfl)
      simp at this
  | succ H ih =>
    intro len t used hH hBH hl hI hS ht hck hsh
    cases t with
    | leaf c ids =>
      obtain ⟨c, rfl⟩ := Option.ne_none_iff_exists'.mp (hck [] _ (PTree.sub_nil _))
      obtain ⟨T, h1, h2⟩ := hbase A.parBase len ids used (Or.inl rfl) hl hI hS
      exact ⟨T, .leaf len c ids T h1, h2⟩
    | node c l =>
      obtain ⟨c, rfl⟩ := Option.ne_none_iff_exists'.mp (hck [] _ (PTree.sub_nil _))
      obtain ⟨h1, h2⟩ := hsh [] _ l (PTree.sub_nil _)
      by_cases h1l : 1 < l.length
      swap
      · obtain ⟨t', rfl⟩ : ∃ t', l = [t'] := by
          have := List.length_pos_of_ne_nil h1
          exact List.length_eq_one_iff.mp (by omega)
        obtain ⟨c', ids, rfl⟩ := h2 t' rfl
        have he : (PTree.node (some c) [PTree.leaf c' ids]).collectIds = ids := by
          simp [PTree.collectIds, PTree.collectAll]
        rw [he] at hI hS
        obtain ⟨T, h3, h4⟩ := hbase A.parBase len ids used (Or.inl rfl) hl hI hS
        exact ⟨T, .single len c c' ids T h3, h4⟩
      have hckl := (PTree.checked_node.mp hck).2
      obtain ⟨pcs, hp1, hsp, hmeet⟩ := ht [] _ _ (PTree.sub_nil _) h1l
      obtain ⟨hpl, hget⟩ := toOldFrom_get l 0 pcs hp1
      have hpsl : (pcs.map Prod.fst).length = pcs.length := List.length_map ..
      have hpart : ∀ (j : Nat) (t : PTree (Chk D K)), l[j]? = some t → infPts D ⊆ t.collectIds ∧ t.collectIds ⊆ S₀ := by
        intro j t hj
        refine ⟨?_, (collect_sub (t := .node (some c) l) (p := [j]) (by rw [PTree.sub_node, hj]; rfl)).trans hS⟩
        obtain ⟨c', _, h2⟩ := hget j t hj
        have := hsp.points hD (p := ⟨0 + j, t.collectIds, c'.bounds⟩)
          (List.mem_map.mpr ⟨_, List.mem_of_getElem? h2, rfl⟩)
        simp only at this
        rw [this]
        exact Finset.subset_union_left
      have hlj : ∀ j : Fin (pcs.map Prod.fst).length, j.val < l.length := fun j => by
        have := j.2
        omega
      have hjs : ∀ j : Fin (pcs.map Prod.fst).length, l[j.val]? = some (l[j.val]'(hlj j)) := fun j => List.getElem?_eq_getElem _
      have hpt : ∀ j : Fin (pcs.map Prod.fst).length, (pcs.map Prod.fst)[j].points = (l[j.val]'(hlj j)).collectIds := by
        intro j
        obtain ⟨c', _, h3⟩ := hget j _ (hjs j)
        have : (pcs.map Prod.fst)[j.val]? = some ⟨0 + j.val, (l[j.val]'(hlj j)).collectIds, c'.bounds⟩ := by
          rw [List.getElem?_map, h3]; rfl
        obtain ⟨_, h5⟩ := List.getElem?_eq_some_iff.mp this
        simp only [Fin.getElem_fin, h5]
      have hsubH : ∀ (j : Nat) (t : PTree (Chk D K)), l[j]? = some t → (∀ p s, PTree.sub t p = some s → p.length ≤ H) ∧
          TreeOk A x h S₀ t ∧ Shape t := by
        intro j t hj
        refine ⟨fun p s hs => ?_, fun p c l hs => ?_, fun p c l hs => ?_⟩
        · have := hH (j :: p) s (by rw [PTree.sub_node, hj]; exact hs)
          simpa using this
        · exact ht (j :: p) c l (by rw [PTree.sub_node, hj]; exact hs)
        · exact hsh (j :: p) c l (by rw [PTree.sub_node, hj]; exact hs)
      obtain ⟨T0, hT0, hdis⟩ := exists_disjoint_family (pcs.map Prod.fst).length
        (fun j T => LBTri A (len + Build.digits j.val) (l[j.val]'(hlj j)) T)
        (fun j used => ih (len + Build.digits j.val) (l[j.val]'(hlj j)) used (hsubH j _ (hjs j)).1 (by omega) (by omega)
          (hpart j _ (hjs j)).1 (hpart j _ (hjs j)).2 (hsubH j _ (hjs j)).2.1 (hckl _ (List.getElem_mem _))
          (hsubH j _ (hjs j)).2.2) used
      obtain ⟨T1, eS, eP, E, R, g1, g2, g3, g4, g5⟩ := level_exists hD hw A.hash hI hS hsp (inter := A.interPart pcs) (by
          intro k vs hnd hvs hsimp v hv hvS hlt
          have hk : k.val < pcs.length := lt_of_lt_of_eq k.2 hpsl
          simp only [LBParams.interPart, List.getElem?_eq_getElem hk]
          refine hmeet _ (List.getElem_mem hk) vs hnd hvs hsimp v ?_ hvS hlt
          simpa using hv) (M := B + 6 * H) (by omega) (T0 := T0) used
        (fun j => ⟨by
          rw [hpt j]
          exact lb_correct A hD hw hB _ _ _ (hT0 j).1 H (hsubH j _ (hjs j)).1 (by omega) (by omega)
            (hpart j _ (hjs j)).1 (hpart j _ (hjs j)).2 (hsubH j _ (hjs j)).2.1, (hT0 j).2⟩) hdis
        (A.base A.parEdge (len + 1))
        (fun V hIV hVS E hE => by
          obtain ⟨a1, a2, a3⟩ := hB _ _ _ _ (Or.inr rfl) (by omega) hIV hVS hE
          exact ⟨a1, a2, by omega⟩)
        (fun V used hIV hVS => hbase _ _ _ used (Or.inr rfl) (by omega) hIV hVS)
      have e1 : (Finset.range (pcs.map Prod.fst).length).biUnion eS = (Finset.range pcs.length).biUnion eS := by rw [hpsl]
      have e2 : meetsOther (pcs.map Prod.fst).length = meetsOther pcs.length := by rw [hpsl]
      rw [hpsl] at g2
      rw [e1] at g4
      refine ⟨R, .node len c l h1l l ((PTree.copyAll_spec l).1 hckl) (List.ofFn T0) (by simp [hpl]) ?_ pcs hp1
        (List.ofFn T1) (by simp [hpl]) eS eP ?_ E g2 g3 R g4, g5⟩
      · intro i t T hi hT
        have hi' : i < (pcs.map Prod.fst).length := by
          by_contra hge'
          rw [List.getElem?_ofFn, dif_neg hge'] at hT
          exact absurd hT (by simp)
        rw [List.getElem?_ofFn, dif_pos hi'] at hT
        obtain rfl := Option.some.inj hT
        have := hjs ⟨i, hi'⟩
        rw [hi] at this
        obtain rfl := Option.some.inj this
        exact (hT0 ⟨i, hi'⟩).1
      · intro i T T' hT hT'
        have hi' : i < (pcs.map Prod.fst).length := by
          by_contra hge'
          rw [List.getElem?_ofFn, dif_neg hge'] at hT
          exact absurd hT (by simp)
        rw [List.getElem?_ofFn, dif_pos hi'] at hT hT'
        obtain rfl := Option.some.inj hT
        obtain rfl := Option.some.inj hT'
        have := g1 ⟨i, hi'⟩
        rw [e2] at this
        exact this

end
end DC
end Verif
