import Verif.Props.LBRun

/-!
# C80: parts that are not separated

`getEdge` starts at the simplices of the convex hull. If no circumsphere of these meets another part, nothing of the part is
an edge, even if circumspheres further inside contain points of other parts.
-/
namespace Verif
namespace DC
open Del

/-- Simplices of the parts that are not in the edge are in the result. -/
theorem mergeTri_keeps {D : Nat} {K : Type} {hash : Nat → BitVec 32} {ps : List (Part.Partition D K)} {dts : List Tri}
    {eS : Finset Nat} {E R : Tri} (hd : dts.Pairwise fun a b => Disjoint a.range b.range)
    (hm : MergeTri hash ps dts eS E R) {T : Tri} (hT : T ∈ dts) {i : Nat} (hi : T.contains i = true) (hn : i ∉ eS) :
    R.contains i = true ∧ R.vs i = T.vs i := by
  obtain ⟨d0, rest, M1, M2, wu1, del, order, st, rfl, hf, ⟨mks, _, hM2⟩, _, _, _, _, ⟨get, ns, mks', _, _, hR⟩⟩ := hm
  obtain ⟨a1, a2, _⟩ := mergeAll_spec rest d0 hd
  change (mergeAll d0 rest).filter eS = some M1 at hf
  unfold Tri.filter at hf
  split_ifs at hf
  cases hf
  obtain ⟨h1, h2⟩ := Tri.contains_iff.mp hi
  have hr : i ∈ (mergeAll d0 rest).range := (a1 i).mpr ⟨T, hT, h1⟩
  obtain ⟨e1, e2, _⟩ := a2 T hT i h1
  subst hM2
  subst hR
  refine ⟨Tri.contains_iff.mpr ⟨?_, ?_⟩, ?_⟩
  · simp [Tri.merge, hr]
  · simpa [Tri.merge, hr, hn, e1] using h2
  · simp [Tri.merge, hr, e2]

/-- If no circumsphere of the hull meets another part, there are no edge simplices. -/
theorem edgeSpec_empty {T : Tri} {meets : Nat → Bool} (h : ∀ x ∈ T.hull, meets x = false) (x : Nat) : ¬ EdgeSpec T meets x := by
  intro he
  induction he with
  | hull x hx _ hm => rw [h x hx] at hm; exact absurd hm (by simp)
  | step _ _ _ _ _ _ ih => exact ih

section
variable {K W : Type} [Field K] [LinearOrder K] [IsStrictOrderedRing K] [AddCommGroup W] [Module K W]
variable {D : Nat} {x : Nat → W} {h : Nat → K} {S₀ : Finset Nat} {A : LBParams D K} {l : List (PTree (Chk D K))}

/-- All children are leaves with checkers, whose points are in `S₀` and contain the infinite points. -/
def Leaves (S₀ : Finset Nat) (l : List (PTree (Chk D K))) : Prop :=
  ∀ t ∈ l, ∃ c ids, t = .leaf (some c) ids ∧ infPts D ⊆ ids ∧ ids ⊆ S₀

omit [Field K] [LinearOrder K] [IsStrictOrderedRing K] in
theorem Leaves.checked (hl : Leaves S₀ l) : ∀ t ∈ l, PTree.Checked t := by
  intro t ht p s hs
  obtain ⟨c, ids, rfl, _⟩ := hl t ht
  cases p with
  | nil => rw [PTree.sub_nil] at hs; cases hs; simp [PTree.chk]
  | cons i p => simp at hs

/-- If no circumsphere of the hull of a part meets the checker of another part, the whole triangulation of the part is kept. -/
theorem lb_hidden (hw : World D x h S₀) {B : Nat} (hB : LBBaseOk A x h S₀ B) (hBM : B + 2 < 256) {len : Nat} (hlen : 1 ≤ len)
    (hl : Leaves S₀ l) {c : Chk D K} (h1 : 1 < l.length) {j : Nat} {cj : Option (Chk D K)} {Sj : Finset Nat}
    (hj : l[j]? = some (.leaf cj Sj))
    (hmeet : ∀ (k : Nat) (ck : Chk D K) (Sk : Finset Nat), k ≠ j → l[k]? = some (.leaf (some ck) Sk) →
      ∀ vs : List Nat, vs.Pairwise (· < ·) → IsDel x h Sj vs.toFinset → vsFinite D vs = false → ck.meets (A.cs vs) vs = false)
    {R : Tri} (hR : LBTri A len (.node (some c) l) R) {s : Finset Nat} (hs : IsDel x h Sj s) :
    ∃ i, R.contains i = true ∧ (R.vs i).toFinset = s := by
  cases hR with
  | single => simp at h1
  | node _ _ _ _ cps hcp dts hlend hrec pcs hpcs dts' hlen' eS eP hedge E hE hdisj _ hm =>
    obtain ⟨hpl, hget⟩ := toOldFrom_get l 0 pcs hpcs
    have hcps : cps = l := by
      rw [(PTree.copyAll_spec l).1 hl.checked] at hcp; exact (Option.some.inj hcp).symm
    subst hcps
    have hdt : ∀ (k : Nat) (ck : Option (Chk D K)) (Sk : Finset Nat) (T : Tri), cps[k]? = some (.leaf ck Sk) → dts[k]? = some T →
        IsDT D x h Sk T ∧ T.MarksOk ∧ T.mark ≤ B := by
      intro k ck Sk T hk hT
      obtain ⟨c', ids, he, hI, hS⟩ := hl _ (List.mem_of_getElem? hk)
      cases he
      cases hrec k _ T hk hT with
      | leaf _ _ _ _ hb => exact hB _ _ _ _ (Or.inl rfl) (by omega) hI hS hb
    have hjl : j < cps.length := (List.getElem?_eq_some_iff.mp hj).1
    have hTj : dts[j]? = some (dts[j]'(by omega)) := List.getElem?_eq_getElem _
    have hTj' : dts'[j]? = some (dts'[j]'(by omega)) := List.getElem?_eq_getElem _
    obtain ⟨g1, g2, g3⟩ := hdt j _ _ _ hj hTj
    set T := dts[j]'(by omega)
    set T' := dts'[j]'(by omega)
    have hgj := hedge j T T' hTj hTj'
    obtain ⟨i, hi, hv⟩ := g1.complete s hs
    have hsm := hgj.same
    have hi' : T'.contains i = true := by
      rw [Tri.contains_iff, hsm.range, hsm.id]; exact Tri.contains_iff.mp hi
    have hnot : i ∉ (Finset.range pcs.length).biUnion eS := by
      intro hmem
      obtain ⟨k, hk, hik⟩ := Finset.mem_biUnion.mp hmem
      have hkl : k < cps.length := by rw [← hpl]; exact Finset.mem_range.mp hk
      have hTk : dts[k]? = some (dts[k]'(by omega)) := List.getElem?_eq_getElem _
      have hTk' : dts'[k]? = some (dts'[k]'(by omega)) := List.getElem?_eq_getElem _
      have hge := hedge k _ _ hTk hTk'
      obtain ⟨c', ids, he, hI, hS⟩ := hl cps[k] (List.getElem_mem _)
      obtain ⟨f1, f2, f3⟩ := hdt k (some c') ids _ (by rw [List.getElem?_eq_getElem hkl, he]) hTk
      have hsp := (C46_getEdge D _ _ _ _ _ f1.wf f2 (by omega) hge).1 i
      rw [hsp] at hik
      by_cases hkj : k = j
      · subst hkj
        refine edgeSpec_empty (fun y hy => ?_) i hik
        obtain ⟨hc, hvf⟩ := (f1.hull.2 y).mp hy
        rw [← Bool.not_eq_true]
        intro hmt
        unfold meetsOther at hmt
        rw [List.any_eq_true] at hmt
        obtain ⟨m, hm1, hm2⟩ := hmt
        rw [Bool.and_eq_true, decide_eq_true_eq] at hm2
        obtain ⟨hmk, hm2⟩ := hm2
        have hml : m < cps.length := by rw [← hpl]; exact List.mem_range.mp hm1
        obtain ⟨cm, idm, hem, _⟩ := hl cps[m] (List.getElem_mem _)
        have hm3 : cps[m]? = some (.leaf (some cm) idm) := by rw [List.getElem?_eq_getElem hml, hem]
        obtain ⟨c'', hc1, hc2⟩ := hget m _ hm3
        cases hc1
        rw [LBParams.interPart, hc2] at hm2
        have hmf := hmeet m cm idm hmk hm3 _ (f1.sorted y hc) (by
          have := g1.sound y hc
          exact this) hvf
        simp only [hmf] at hm2
        exact absurd hm2 (by simp)
      · have hr := (Tri.contains_iff.mp (hik.contains f1.wf)).1
        have hd := List.pairwise_cons.mp hdisj |>.2
        have hdd : Disjoint (dts'[k]'(by omega)).range T'.range := by
          rcases lt_or_gt_of_ne hkj with hlt | hlt
          · exact List.pairwise_iff_getElem.mp hd k j _ _ hlt
          · exact (List.pairwise_iff_getElem.mp hd j k _ _ hlt).symm
        rw [hge.same.range] at hdd
        exact Finset.disjoint_left.mp hdd hr (Tri.contains_iff.mp hi').1
    obtain ⟨r1, r2⟩ := mergeTri_keeps (List.pairwise_cons.mp hdisj).2 hm (List.mem_of_getElem? hTj') hi' hnot
    exact ⟨i, r1, by rw [r2, hsm.vs]; exact hv⟩

/-- The triangulator returns for a node of leaves with disjoint finite points, if the circumsphere of some hull simplex with a
finite vertex meets another part. -/
theorem lb_hidden_exists [Module.Finite K W] (hD : D ≤ 64) (hw : World D x h S₀) {B : Nat} (hB : LBBaseOk A x h S₀ B) (hBM : B + 6 < 256)
    (hbase : ∀ par len S (used : Finset Nat), par = A.parBase ∨ par = A.parEdge → 1 ≤ len → infPts D ⊆ S → S ⊆ S₀ →
      ∃ T, A.base par len S T ∧ Disjoint T.range used)
    {len : Nat} (hlen : 1 ≤ len) (hl : Leaves S₀ l) {c : Chk D K} (h1 : 1 < l.length)
    (hdis : ∀ (i j : Nat) (ci cj : Option (Chk D K)) (Si Sj : Finset Nat), l[i]? = some (.leaf ci Si) → l[j]? = some (.leaf cj Sj) →
      ∀ v ∈ Si, v ∈ Sj → v ∉ infPts D → i = j)
    {j k : Nat} (hjk : k ≠ j) {cj : Option (Chk D K)} {ck : Chk D K} {Sj Sk : Finset Nat} (hj : l[j]? = some (.leaf cj Sj))
    (hk : l[k]? = some (.leaf (some ck) Sk)) {s : Finset Nat} (hs : IsDel x h Sj s) (hsI : ¬ s ⊆ infPts D)
    (hsF : ∃ v ∈ s, v ∈ infPts D)
    (hmeet : ∀ vs : List Nat, vs.toFinset = s → vs.Nodup → ck.meets (A.cs vs) vs = true) :
    ∃ R, LBTri A len (.node (some c) l) R := by
  obtain ⟨pcs, hpcs, hpl, hget⟩ := PTree.toOldFrom_some l 0 (fun t ht => by
    obtain ⟨c, ids, rfl, _⟩ := hl t ht; simp [PTree.chk])
  have hleaf : ∀ j : Fin l.length, ∃ c ids, l[j.val]? = some (.leaf (some c) ids) ∧ infPts D ⊆ ids ∧ ids ⊆ S₀ := by
    intro j
    obtain ⟨c, ids, he, h2, h3⟩ := hl l[j] (List.getElem_mem j.2)
    exact ⟨c, ids, by rw [List.getElem?_eq_getElem j.2, ← he]; rfl, h2, h3⟩
  choose C I hlC hCI hCS using hleaf
  obtain ⟨T0, hT0, hdT⟩ := exists_disjoint_family l.length
    (fun j T => A.base A.parBase (len + Build.digits j.val) (I j) T)
    (fun j used => hbase _ _ _ used (Or.inl rfl) (by omega) (hCI j) (hCS j)) ∅
  have hdt : ∀ j, IsDT D x h (I j) (T0 j) ∧ (T0 j).MarksOk ∧ (T0 j).mark ≤ B := fun j =>
    hB _ _ _ _ (Or.inl rfl) (by omega) (hCI j) (hCS j) (hT0 j).1
  have hge := fun j : Fin l.length => C46_getEdge_exists D (T0 j)
    (fun s => meetsOther pcs.length j (A.interPart pcs ((T0 j).vs s))) (hdt j).1.wf (hdt j).2.1 (by have := (hdt j).2.2; omega)
  choose T1 eS' eP' hge using hge
  let eS : Nat → Finset Nat := fun i => if hi : i < l.length then eS' ⟨i, hi⟩ else ∅
  let eP : Nat → Finset Nat := fun i => if hi : i < l.length then eP' ⟨i, hi⟩ else ∅
  have heS : ∀ j : Fin l.length, eS j = eS' j := fun j => dif_pos j.2
  have heP : ∀ j : Fin l.length, eP j = eP' j := fun j => dif_pos j.2
  have hspec := fun j => C46_getEdge D _ _ _ _ _ (hdt j).1.wf (hdt j).2.1 (by have := (hdt j).2.2; omega) (hge j)
  have hmk := fun j => C47_getEdge_partial D _ _ _ _ _ (hdt j).2.1 (by have := (hdt j).2.2; omega) (hge j)
  have hT1 : ∀ j, IsDT D x h (I j) (T1 j) := fun j => (hdt j).1.same (hge j).same
  have hIeq : ∀ (a : Fin l.length) (ca : Option (Chk D K)) (Sa : Finset Nat), l[a.val]? = some (.leaf ca Sa) → Sa = I a ∧ ca = some (C a) := by
    intro a ca Sa ha
    rw [hlC a] at ha
    cases ha
    exact ⟨rfl, rfl⟩
  set V := (Finset.range pcs.length).biUnion eP with hV
  have hmemV : ∀ v, v ∈ V ↔ v ∈ infPts D ∨ ∃ a : Fin l.length, ∃ e,
      EdgeSpec (T0 a) (fun s => meetsOther pcs.length a (A.interPart pcs ((T0 a).vs s))) e ∧ v ∈ (T0 a).vs e := by
    intro v
    rw [hV, Finset.mem_biUnion]
    constructor
    · rintro ⟨a, ha, hv⟩
      have ha' : a < l.length := by rw [← hpl]; exact Finset.mem_range.mp ha
      rw [heP ⟨a, ha'⟩, (hspec ⟨a, ha'⟩).2] at hv
      rcases hv with hv | ⟨e, h1, h2⟩
      · exact Or.inl (List.mem_toFinset.mpr hv)
      · exact Or.inr ⟨⟨a, ha'⟩, e, h1, h2⟩
    · rintro (hv | ⟨a, e, h1, h2⟩)
      · refine ⟨0, Finset.mem_range.mpr (by omega), ?_⟩
        rw [heP ⟨0, by omega⟩, (hspec ⟨0, by omega⟩).2]
        exact Or.inl (List.mem_toFinset.mp hv)
      · refine ⟨a, Finset.mem_range.mpr (by rw [hpl]; exact a.2), ?_⟩
        rw [heP a, (hspec a).2]
        exact Or.inr ⟨e, h1, h2⟩
  have hIV : infPts D ⊆ V := fun v hv => (hmemV v).mpr (Or.inl hv)
  have hVI : ∀ v ∈ V, v ∈ infPts D ∨ ∃ a, v ∈ I a := by
    intro v hv
    rcases (hmemV v).mp hv with hv | ⟨a, e, h1, h2⟩
    · exact Or.inl hv
    · exact Or.inr ⟨a, ((hdt a).1.sound e (h1.contains (hdt a).1.wf)).1 (List.mem_toFinset.mpr h2)⟩
  have hVS : V ⊆ S₀ := by
    intro v hv
    rcases hVI v hv with hv | ⟨a, ha⟩
    · exact hw.inf hv
    · exact hCS a ha
  -- the edge has a finite point
  have hfin : ∃ p ∈ V, p ∉ infPts D := by
    obtain ⟨p, hp, hpI⟩ := Finset.not_subset.mp hsI
    have hjl : j < l.length := (List.getElem?_eq_some_iff.mp hj).1
    have hkl : k < l.length := (List.getElem?_eq_some_iff.mp hk).1
    obtain ⟨rfl, -⟩ := hIeq ⟨j, hjl⟩ _ _ hj
    obtain ⟨i, hi, hv⟩ := (hdt ⟨j, hjl⟩).1.complete s hs
    refine ⟨p, (hmemV p).mpr (Or.inr ⟨⟨j, hjl⟩, i, ?_, by rw [← List.mem_toFinset, hv]; exact hp⟩), hpI⟩
    refine .hull i (((hdt ⟨j, hjl⟩).1.hull.2 i).mpr ⟨hi, ?_⟩) ((hdt ⟨j, hjl⟩).1.ne_inf hi) ?_
    · obtain ⟨w, hw1, hw2⟩ := hsF
      rw [← hv, List.mem_toFinset] at hw1
      rw [vsFinite, List.all_eq_false]
      exact ⟨w, hw1, by rw [((mem_infPts hD).mp hw2).1]; simp⟩
    · refine meetsOther_of (k := k) (by omega) hjk ?_
      obtain ⟨c', hc1, hc2⟩ := hget k _ hk
      cases hc1
      rw [LBParams.interPart, hc2]
      exact hmeet _ hv ((hdt ⟨j, hjl⟩).1.nodup hi)
  obtain ⟨E, hE, hEu⟩ := hbase A.parEdge (len + 1) V (Finset.univ.biUnion fun j => (T0 j).range) (Or.inr rfl) (by omega) hIV hVS
  rw [Finset.disjoint_biUnion_right] at hEu
  obtain ⟨e1, e2, e3⟩ := hB _ _ _ _ (Or.inr rfl) (by omega) hIV hVS hE
  have hfirst : ∀ i, E.contains i = true → ∃ v0, (E.vs i)[0]? = some v0 ∧ v0 ∈ V ∧ v0 ∉ infPts D := by
    intro i hi
    have hd := e1.sound i hi
    have hn : ¬ (E.vs i).toFinset ⊆ infPts D := by
      intro hsub
      obtain ⟨p, hp, hpI⟩ := hfin
      have g1 := hw.infEmpty _ hsub hd.2.1 _ (hd.interp).1 p (hVS hp) hpI
      have g2 := hd.interp.2 p hp (fun hm => hpI (hsub hm))
      exact lt_asymm g1 g2
    obtain ⟨w, hw1, hwI⟩ := Finset.not_subset.mp hn
    rw [List.mem_toFinset] at hw1
    have hs := e1.sorted i hi
    cases hvs : E.vs i with
    | nil => rw [hvs] at hw1; simp at hw1
    | cons v0 l' =>
      refine ⟨v0, by simp, hd.1 (by rw [hvs]; simp), fun hI => hwI ?_⟩
      rw [hvs] at hw1 hs
      have hwS : w ∈ S₀ := hVS (hd.1 (by rw [hvs]; simpa using hw1))
      rw [mem_infPts hD] at hI ⊢
      refine ⟨?_, hw.ids w hwS⟩
      have hle : v0 ≤ w := by
        rcases List.mem_cons.mp hw1 with rfl | hw1
        · exact le_refl _
        · exact le_of_lt ((List.pairwise_cons.mp hs).1 w hw1)
      have h1 := hI.1
      rw [Part.isFinite, decide_eq_false_iff_not] at h1 ⊢
      omega
  have hps : ∀ p ∈ pcs.map Prod.fst, ∃ a : Fin l.length, p = ⟨a.val, I a, (C a).bounds⟩ := by
    intro p hp
    obtain ⟨a, ha, rfl⟩ := List.mem_iff_getElem.mp hp
    have ha' : a < l.length := by simpa [hpl] using ha
    obtain ⟨c', hc1, hc2⟩ := hget a _ (hlC ⟨a, ha'⟩)
    cases hc1
    refine ⟨⟨a, ha'⟩, ?_⟩
    obtain ⟨hlt, hget'⟩ := List.getElem?_eq_some_iff.mp hc2
    rw [List.getElem_map, hget']
    simp [PTree.collectIds]
  have hcontE : ∀ (a : Fin l.length) (i : Nat), i ∈ (T0 a).range → i ∈ (Finset.range pcs.length).biUnion eS →
      EdgeSpec (T0 a) (fun s => meetsOther pcs.length a (A.interPart pcs ((T0 a).vs s))) i := by
    intro a i hi hm
    obtain ⟨b, hb, hib⟩ := Finset.mem_biUnion.mp hm
    have hb' : b < l.length := by rw [← hpl]; exact Finset.mem_range.mp hb
    rw [heS ⟨b, hb'⟩, (hspec ⟨b, hb'⟩).1] at hib
    have hr := (Tri.contains_iff.mp (hib.contains (hdt ⟨b, hb'⟩).1.wf)).1
    by_cases hab : a = ⟨b, hb'⟩
    · subst hab; exact hib
    · exact absurd hr (Finset.disjoint_left.mp (hdT a _ hab) hi)
  have hrange : ∀ a, (T1 a).range = (T0 a).range := fun a => (hge a).same.range
  have hin : MergeIn (pcs.map Prod.fst) (List.ofFn T1) ((Finset.range pcs.length).biUnion eS) E := {
    disj := by
      rw [List.pairwise_cons]
      refine ⟨fun B hB => ?_, ?_⟩
      · obtain ⟨a, rfl⟩ := List.mem_ofFn.mp hB
        rw [hrange]; exact hEu a (Finset.mem_univ _)
      · rw [List.pairwise_ofFn]
        intro a b hab
        rw [hrange, hrange]; exact hdT a b (ne_of_lt hab)
    stored := by
      intro i hi
      obtain ⟨b, hb, hib⟩ := Finset.mem_biUnion.mp hi
      have hb' : b < l.length := by rw [← hpl]; exact Finset.mem_range.mp hb
      rw [heS ⟨b, hb'⟩, (hspec ⟨b, hb'⟩).1] at hib
      refine ⟨T1 ⟨b, hb'⟩, List.mem_ofFn.mpr ⟨_, rfl⟩, ?_⟩
      rw [hrange]
      exact (Tri.contains_iff.mp (hib.contains (hdt ⟨b, hb'⟩).1.wf)).1
    ns := by
      intro B hB i hi hr n hn hf
      obtain ⟨a, rfl⟩ := List.mem_ofFn.mp hB
      rw [hrange] at hr ⊢
      rw [(hge a).same.ns] at hn
      exact (Tri.contains_iff.mp ((hdt a).1.wf.ns i ((hcontE a i hr hi).contains (hdt a).1.wf) n hn hf)).1
    vsLen := by
      intro B hB i hi hr
      obtain ⟨a, rfl⟩ := List.mem_ofFn.mp hB
      rw [hrange] at hr
      rw [(hge a).same.vs]
      exact (hdt a).1.len hw.dim ((hcontE a i hr hi).contains (hdt a).1.wf)
    edgeLen := fun i hi => e1.len hw.dim hi
    partId := by
      intro k p hk
      have hk' : k < l.length := by
        have := (List.getElem?_eq_some_iff.mp hk).1
        simpa [hpl] using this
      obtain ⟨c', hc1, hc2⟩ := hget k _ (hlC ⟨k, hk'⟩)
      rw [List.getElem?_map, hc2] at hk
      cases hk
      simp
    one := by
      intro i hi v0 hv p hp p' hp' h1 h2
      obtain ⟨v, e, hvV, hvI⟩ := hfirst i hi
      rw [hv] at e
      cases e
      obtain ⟨a, rfl⟩ := hps p hp
      obtain ⟨b, rfl⟩ := hps p' hp'
      have := hdis a b _ _ _ _ (hlC a) (hlC b) v0 h1 h2 hvI
      obtain rfl : a = b := Fin.ext this
      rfl
    marks := by
      intro B hB
      rcases List.mem_cons.mp hB with rfl | hB
      · exact e2
      · obtain ⟨a, rfl⟩ := List.mem_ofFn.mp hB
        exact (hmk a).1
    mark := by
      intro B hB
      rcases List.mem_cons.mp hB with rfl | hB
      · omega
      · obtain ⟨a, rfl⟩ := List.mem_ofFn.mp hB
        have g1 := (hmk a).2.1
        have g2 := (hdt a).2.2
        omega }
  obtain ⟨R, hR⟩ := C49_mergeTriangulation_exists A.hash (pcs.map Prod.fst) (List.ofFn T1)
    ((Finset.range pcs.length).biUnion eS) E hin (by
      intro h0
      have := congrArg List.length h0
      rw [List.length_ofFn, List.length_nil] at this
      omega) (by
      intro i hi
      obtain ⟨v0, g1, g2, g3⟩ := hfirst i hi
      refine ⟨v0, g1, ?_⟩
      rcases hVI v0 g2 with g2 | ⟨a, ha⟩
      · exact absurd g2 g3
      · obtain ⟨c', hc1, hc2⟩ := hget a _ (hlC a)
        exact ⟨_, List.mem_map.mpr ⟨_, List.mem_of_getElem? hc2, rfl⟩, ha⟩) (by
      intro B hB i hi
      rcases List.mem_cons.mp hB with rfl | hB
      · exact e1.nlen i hi
      · obtain ⟨a, rfl⟩ := List.mem_ofFn.mp hB
        exact (hT1 a).nlen i hi)
  refine ⟨R, .node len c l h1 l ((PTree.copyAll_spec l).1 hl.checked) (List.ofFn T0) (by simp) ?_ pcs hpcs
    (List.ofFn T1) (by simp) eS eP ?_ E hE hin.disj R hR⟩
  · intro i t T hi hT
    have hi' : i < l.length := (List.getElem?_eq_some_iff.mp hi).1
    rw [List.getElem?_ofFn, dif_pos hi'] at hT
    obtain rfl := Option.some.inj hT
    rw [hlC ⟨i, hi'⟩] at hi
    cases hi
    exact .leaf _ _ _ _ (hT0 ⟨i, hi'⟩).1
  · intro i T T' hT hT'
    have hi' : i < l.length := by
      by_contra hge'
      rw [List.getElem?_ofFn, dif_neg hge'] at hT
      exact absurd hT (by simp)
    rw [List.getElem?_ofFn, dif_pos hi'] at hT hT'
    obtain rfl := Option.some.inj hT
    obtain rfl := Option.some.inj hT'
    have e1 := heS ⟨i, hi'⟩
    have e2 := heP ⟨i, hi'⟩
    simp only at e1 e2
    rw [e1, e2]
    exact hge ⟨i, hi'⟩

end
end DC
end Verif
