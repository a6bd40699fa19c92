import Verif.Props.Merge
import Verif.Props.Partitioner
import Verif.Lemmas.DCFaces
import Mathlib.Data.List.Sort
import Mathlib.Data.List.OfFn
import Mathlib.Data.List.FinRange

/-!
# Divide and conquer yields the Delaunay triangulation (C52)
-/
namespace Verif
namespace DC
open Del

variable {K W : Type} [Field K] [LinearOrder K] [IsStrictOrderedRing K] [AddCommGroup W] [Module K W]

/-- The ids of the infinite points. -/
abbrev infPts (D : Nat) : Finset Nat := (Part.infIds D).toFinset

/-- The finite points of a part. -/
abbrev finPts {D : Nat} {K : Type} (p : Part.Partition D K) : Finset Nat :=
  p.points.filter fun i => Part.isFinite D i = true

theorem mem_infPts {D i : Nat} (hD : D ≤ 64) :
    i ∈ infPts D ↔ Part.isFinite D i = false ∧ i < 2 ^ 64 := by
  rw [List.mem_toFinset, Part.mem_infIds hD]
  simp [Part.isFinite]

/-- `T` is the Delaunay triangulation of the points `S`: its valid simplices are the Delaunay simplices, each
once, with sorted vertices; neighbour entry `d` is the simplex across the facet opposite vertex `d`, or
infinite if there is none; the hull list is exact. -/
structure IsDT (D : Nat) (x : Nat → W) (h : Nat → K) (S : Finset Nat) (T : Tri) : Prop where
  sound : ∀ i, T.contains i = true → IsDel x h S (T.vs i).toFinset
  complete : ∀ t, IsDel x h S t → ∃ i, T.contains i = true ∧ (T.vs i).toFinset = t
  unique : ∀ i j, T.contains i = true → T.contains j = true → (T.vs i).toFinset = (T.vs j).toFinset → i = j
  sorted : ∀ i, T.contains i = true → (T.vs i).Pairwise (· < ·)
  id : ∀ i, T.contains i = true → T.id i = i
  nlen : ∀ i, T.contains i = true → (T.ns i).length = D + 1
  nbr : ∀ i, T.contains i = true → ∀ d < D + 1,
    (T.contains ((T.ns i).getD d 0) = true ∧
      Across (T.vs i).toFinset ((T.vs i).getD d 0) (T.vs ((T.ns i).getD d 0)).toFinset) ∨
    ((T.ns i).getD d 0 = sINF ∧ ∀ t, IsDel x h S t → ¬ Across (T.vs i).toFinset ((T.vs i).getD d 0) t)
  hull : T.HullOk D

namespace IsDT
variable {D : Nat} {x : Nat → W} {h : Nat → K} {S : Finset Nat} {T : Tri} (H : IsDT D x h S T)
include H

theorem nodup {i : Nat} (hi : T.contains i = true) : (T.vs i).Nodup :=
  (H.sorted i hi).imp (fun h => ne_of_lt h)

theorem len (hdim : Module.finrank K W = D + 1) {i : Nat} (hi : T.contains i = true) :
    (T.vs i).length = D + 1 := by
  rw [← List.toFinset_card_of_nodup (H.nodup hi), (H.sound i hi).2.1.1, hdim]

theorem ne_inf {i : Nat} (hi : T.contains i = true) : i ≠ sINF := by
  rw [← H.id i hi]
  exact (Tri.contains_iff.mp hi).2

theorem wf : T.Wf where
  hull := fun i hi _ => ((H.hull.2 i).mp hi).1
  ns := by
    intro i hi n hn hf
    obtain ⟨d, hd, e⟩ := mem_getD hn
    rw [H.nlen i hi] at hd
    rcases H.nbr i hi d hd with ⟨h1, _⟩ | ⟨h1, _⟩
    · rw [e] at h1; exact h1
    · rw [e] at h1; exact absurd h1 hf
  id := H.id

/-- The neighbour relation is complete. -/
theorem exists_nbr [Module.Finite K W] {i j : Nat} (hi : T.contains i = true) (hj : T.contains j = true)
    {v : Nat} (ha : Across (T.vs i).toFinset v (T.vs j).toFinset) (hdim : Module.finrank K W = D + 1) :
    ∃ d < D + 1, (T.vs i).getD d 0 = v ∧ (T.ns i).getD d 0 = j := by
  obtain ⟨d, hd, e⟩ := mem_getD (List.mem_toFinset.mp ha.1)
  rw [H.len hdim hi] at hd
  refine ⟨d, hd, e, ?_⟩
  rcases H.nbr i hi d hd with ⟨h1, h2⟩ | ⟨_, h2⟩
  · rw [e] at h2
    exact H.unique _ _ h1 hj (across_unique (H.sound i hi) (H.sound _ h1) (H.sound j hj) h2 ha)
  · rw [e] at h2
    exact absurd ha (h2 _ (H.sound j hj))

theorem mem_ns [Module.Finite K W] {i j : Nat} (hi : T.contains i = true) (hj : T.contains j = true)
    {v : Nat} (ha : Across (T.vs i).toFinset v (T.vs j).toFinset) (hdim : Module.finrank K W = D + 1) :
    j ∈ T.ns i := by
  obtain ⟨d, hd, _, e⟩ := H.exists_nbr hi hj ha hdim
  rw [← e]
  exact getD_mem (by rw [H.nlen i hi]; exact hd)

/-- Adjacent entries come from adjacency. -/
theorem of_mem_ns [Module.Finite K W] {i j : Nat} (hi : T.contains i = true) (hj : j ∈ T.ns i) (hf : j ≠ sINF) :
    T.contains j = true ∧ ∃ v, Across (T.vs i).toFinset v (T.vs j).toFinset := by
  obtain ⟨d, hd, e⟩ := mem_getD hj
  rw [H.nlen i hi] at hd
  rcases H.nbr i hi d hd with ⟨h1, h2⟩ | ⟨h1, _⟩
  · rw [e] at h1 h2; exact ⟨h1, _, h2⟩
  · rw [e] at h1; exact absurd h1 hf

end IsDT

/-- Points allowed in C52: general position, and infinite points enclosing all points. -/
structure World (D : Nat) (x : Nat → W) (h : Nat → K) (S : Finset Nat) : Prop where
  dim : Module.finrank K W = D + 1
  ids : ∀ i ∈ S, i < 2 ^ 64
  inf : infPts D ⊆ S
  gp : GenPos x h S
  nh : NoHidden x h S
  span : (⊤ : Submodule K W) ≤ Submodule.span K (x '' (infPts D : Set Nat))
  cone : ∀ i ∈ S, InCone (K := K) x (infPts D) (x i)
  infEmpty : ∀ s ⊆ infPts D, IsSimp (K := K) x s → ∀ a : W →ₗ[K] K, Interp x h s a → ∀ p ∈ S, p ∉ infPts D →
    h p < a (x p)
  nz : ∀ i ∈ S, x i ≠ 0

theorem World.mono {D : Nat} {x : Nat → W} {h : Nat → K} {A B : Finset Nat} (H : World D x h B)
    (hA : A ⊆ B) (hI : infPts D ⊆ A) : World D x h A where
  dim := H.dim
  ids := fun i hi => H.ids i (hA hi)
  inf := hI
  gp := H.gp.mono hA
  nh := fun p hp => by
    obtain ⟨b, h1, h2⟩ := H.nh p (hA hp)
    exact ⟨b, h1, fun i hi => h2 i (hA hi)⟩
  span := H.span
  cone := fun i hi => H.cone i (hA hi)
  infEmpty := fun s hs hsi a ha p hp => H.infEmpty s hs hsi a ha p (hA hp)
  nz := fun i hi => H.nz i (hA hi)

/-- What C52 needs of a partition of `S`: it is one (C42), no part contains points of another in its convex
hull (C44), and two parts are not empty. -/
structure SplitOk {D : Nat} (x : Nat → W) (S : Finset Nat) (ps : List (Part.Partition D K)) : Prop where
  splits : ∃ n ids, (∀ i, i ∈ ids ↔ i ∈ S) ∧ Part.SplitsInto D n ids false ps
  sep : ∀ (j k : Nat) (p q : Part.Partition D K), ps[j]? = some p → ps[k]? = some q → j ≠ k →
    ∀ i ∈ finPts q, ¬ InCone (K := K) x (finPts p) (x i)
  two : ∃ (j k : Nat) (p q : Part.Partition D K), ps[j]? = some p ∧ ps[k]? = some q ∧ j ≠ k ∧
    (finPts p).Nonempty ∧ (finPts q).Nonempty

section Split
variable {D : Nat} {x : Nat → W} {h : Nat → K} {S : Finset Nat} {ps : List (Part.Partition D K)}

theorem SplitOk.points (hs : SplitOk x S ps) (hD : D ≤ 64) {p : Part.Partition D K} (hp : p ∈ ps) :
    p.points = infPts D ∪ finPts p := by
  obtain ⟨n, ids, hids, -, -, -, -, hinf⟩ := hs.splits
  ext i
  rw [Finset.mem_union, mem_infPts hD, Finset.mem_filter]
  by_cases hf : Part.isFinite D i = true
  · simp [hf]
  · have hlt : 2 ^ 64 - 2 ^ D ≤ i := by
      rw [Part.isFinite, Part.cINF, decide_eq_true_eq] at hf
      exact not_lt.mp hf
    rw [hinf i hlt p hp]
    simp [hf]

theorem SplitOk.mergeHyp (hs : SplitOk x S ps) (hD : D ≤ 64) (hw : World D x h S) :
    MergeHyp x h (infPts D) (fun j : Fin ps.length => finPts ps[j]) S := by
  have hfin : ∀ i, Part.isFinite D i = true ↔ i < 2 ^ 64 - 2 ^ D := by
    intro i; rw [Part.isFinite, Part.cINF, decide_eq_true_eq]
  obtain ⟨n, ids, hids, hn, hid, huniq, hno, hinf⟩ := hs.splits
  refine
    { mem_S := ?_, notInf := ?_, disj := ?_, sep := ?_, gp := hw.gp, nh := hw.nh, span := hw.span,
      cone := hw.cone, infEmpty := hw.infEmpty, two := ?_, nz := hw.nz }
  · intro i
    constructor
    · intro hi
      by_cases hf : Part.isFinite D i = true
      · obtain ⟨j, ⟨p, hp, hm⟩, _⟩ := huniq i ((hids i).mpr hi) ((hfin i).mp hf)
        obtain ⟨hj, rfl⟩ := List.getElem?_eq_some_iff.mp hp
        exact Or.inr ⟨⟨j, hj⟩, Finset.mem_filter.mpr ⟨hm, hf⟩⟩
      · exact Or.inl ((mem_infPts hD).mpr ⟨by simpa using hf, hw.ids i hi⟩)
    · rintro (hi | ⟨j, hj⟩)
      · exact hw.inf hi
      · rw [Finset.mem_filter] at hj
        by_contra hn'
        exact hno i ((hfin i).mp hj.2) (fun h => hn' ((hids i).mp h)) _ (List.getElem_mem j.2) hj.1
  · intro j i hi hI
    rw [Finset.mem_filter] at hi
    rw [mem_infPts hD] at hI
    rw [hi.2] at hI
    exact absurd hI.1 (by simp)
  · intro j k i hj hk
    rw [Finset.mem_filter] at hj hk
    have hi : i ∈ ids := by
      by_contra hn'
      exact hno i ((hfin i).mp hj.2) hn' _ (List.getElem_mem j.2) hj.1
    obtain ⟨m, _, hu⟩ := huniq i hi ((hfin i).mp hj.2)
    have e1 := hu j ⟨_, List.getElem?_eq_getElem j.2, hj.1⟩
    have e2 := hu k ⟨_, List.getElem?_eq_getElem k.2, hk.1⟩
    exact Fin.ext (e1.trans e2.symm)
  · intro j k hjk q hq
    exact hs.sep j k _ _ (List.getElem?_eq_getElem j.2) (List.getElem?_eq_getElem k.2)
      (fun h => hjk (Fin.ext h)) q hq
  · obtain ⟨j, k, p, q, hp, hq, hjk, h1, h2⟩ := hs.two
    obtain ⟨hj, rfl⟩ := List.getElem?_eq_some_iff.mp hp
    obtain ⟨hk, rfl⟩ := List.getElem?_eq_some_iff.mp hq
    exact ⟨⟨j, hj⟩, ⟨k, hk⟩, fun h => hjk (Fin.ext_iff.mp h), h1, h2⟩

end Split

/-! ### One merge -/

section Node
variable {D : Nat} {x : Nat → W} {h : Nat → K} {S : Finset Nat} {ps : List (Part.Partition D K)}
  {T : Fin ps.length → Tri} {meets : Fin ps.length → Nat → Bool} {eS V : Finset Nat} {E : Tri}

/-- The situation before a merge. -/
structure NodeHyp (x : Nat → W) (h : Nat → K) (S : Finset Nat) (ps : List (Part.Partition D K))
    (T : Fin ps.length → Tri) (meets : Fin ps.length → Nat → Bool) (eS V : Finset Nat) (E : Tri) : Prop where
  hD : D ≤ 64
  world : World D x h S
  split : SplitOk x S ps
  dt : ∀ j : Fin ps.length, IsDT D x h ps[j].points (T j)
  /-- the circumsphere test finds every simplex with a point of another part inside its circumsphere -/
  inter : ∀ j k : Fin ps.length, k ≠ j → ∀ i, (T j).contains i = true → ∀ v ∈ finPts ps[k],
    h v < interp x h ((T j).vs i).toFinset (x v) → meets j i = true
  mem_eS : ∀ e, e ∈ eS ↔ ∃ j, EdgeSpec (T j) (meets j) e
  mem_V : ∀ v, v ∈ V ↔ v ∈ infPts D ∨ ∃ j e, EdgeSpec (T j) (meets j) e ∧ v ∈ (T j).vs e
  edge : IsDT D x h V E
  disjE : ∀ j, Disjoint E.range (T j).range
  disj : ∀ j k, j ≠ k → Disjoint (T j).range (T k).range

/-- Vertex sets of the edge simplices of part `j`. -/
def Ed (T : Fin ps.length → Tri) (meets : Fin ps.length → Nat → Bool) (j : Fin ps.length) (t : Finset Nat) : Prop :=
  ∃ e, EdgeSpec (T j) (meets j) e ∧ ((T j).vs e).toFinset = t

variable [Module.Finite K W] (H : NodeHyp x h S ps T meets eS V E)
include H

namespace NodeHyp

omit [Module.Finite K W] in
theorem mh : MergeHyp x h (infPts D) (fun j : Fin ps.length => finPts ps[j]) S :=
  H.split.mergeHyp H.hD H.world

omit [Module.Finite K W] in
theorem dt' (j : Fin ps.length) : IsDT D x h (infPts D ∪ finPts ps[j]) (T j) := by
  rw [← H.split.points H.hD (p := ps[j]) (List.getElem_mem j.2)]
  exact H.dt j

omit [Module.Finite K W] in
theorem edge_contains {j : Fin ps.length} {e : Nat} (he : EdgeSpec (T j) (meets j) e) :
    (T j).contains e = true := he.contains (H.dt j).wf

omit [Module.Finite K W] in
theorem not_vsFinite {A : Finset Nat} {T : Tri} (hT : IsDT D x h A T) (hA : A ⊆ S) {i : Nat}
    (hi : T.contains i = true) : vsFinite D (T.vs i) = false ↔ ∃ v ∈ (T.vs i).toFinset, v ∈ infPts D := by
  rw [← Bool.not_eq_true]
  simp only [vsFinite, List.all_eq_true, not_forall, List.mem_toFinset (l := T.vs i), exists_prop]
  constructor
  · rintro ⟨v, hv, hf⟩
    exact ⟨v, hv, (mem_infPts H.hD).mpr ⟨by simpa using hf,
      H.world.ids v (hA ((hT.sound i hi).1 (List.mem_toFinset.mpr hv)))⟩⟩
  · rintro ⟨v, hv, hI⟩
    exact ⟨v, hv, by rw [((mem_infPts H.hD).mp hI).1]; simp⟩

theorem eh : EdgeHyp x h (infPts D) (fun j : Fin ps.length => finPts ps[j]) (Ed T meets) V where
  sub := by
    rintro j t ⟨e, he, rfl⟩
    exact (H.dt' j).sound e (H.edge_contains he)
  hull := by
    rintro j t ht hinf ⟨k, hk, q, hq, hlt⟩
    obtain ⟨i, hi, rfl⟩ := (H.dt' j).complete t ht
    refine ⟨i, EdgeSpec.hull i ?_ ((H.dt j).ne_inf hi) (H.inter j k hk i hi q hq hlt), rfl⟩
    exact ((H.dt j).hull.2 i).mpr ⟨hi, (H.not_vsFinite (H.dt' j) (H.mh.partSub j) hi).mpr hinf⟩
  step := by
    rintro j t v u ht hv hu ⟨e, he, hvs⟩ ⟨k, hk, q, hq, hlt⟩
    obtain ⟨i, hi, rfl⟩ := (H.dt' j).complete t ht
    have hec := H.edge_contains he
    have hac : Across ((T j).vs i).toFinset v ((T j).vs e).toFinset := ⟨hv, u, hu, hvs⟩
    obtain ⟨w, hw⟩ := hac.symm
    have hmem := (H.dt' j).mem_ns hec hi hw H.world.dim
    exact ⟨i, EdgeSpec.step e i he hmem ((H.dt j).ne_inf hi) (H.inter j k hk i hi q hq hlt), rfl⟩
  mem_V := by
    intro i
    rw [H.mem_V]
    refine or_congr Iff.rfl ?_
    constructor
    · rintro ⟨j, e, he, hv⟩
      exact ⟨j, _, ⟨e, he, rfl⟩, List.mem_toFinset.mpr hv⟩
    · rintro ⟨j, t, ⟨e, he, rfl⟩, hv⟩
      exact ⟨j, e, he, List.mem_toFinset.mp hv⟩

omit [Module.Finite K W] in
/-- Storage determines the part. -/
theorem part_eq {j k : Fin ps.length} {i : Nat} (hj : i ∈ (T j).range) (hk : i ∈ (T k).range) : j = k := by
  by_contra hne
  exact Finset.disjoint_left.mp (H.disj j k hne) hj hk

omit [Module.Finite K W] in
theorem mem_eS_iff {j : Fin ps.length} {i : Nat} (hi : i ∈ (T j).range) : i ∈ eS ↔ EdgeSpec (T j) (meets j) i := by
  rw [H.mem_eS]
  constructor
  · rintro ⟨k, hk⟩
    have := H.part_eq hi (Tri.contains_iff.mp (H.edge_contains hk)).1
    subst this; exact hk
  · exact fun h => ⟨j, h⟩

/-- Every simplex of the edge triangulation has a finite vertex; its first vertex is finite. -/
theorem edge_first {i : Nat} (hi : E.contains i = true) :
    ∃ v0, (E.vs i)[0]? = some v0 ∧ v0 ∈ V ∧ v0 ∉ infPts D := by
  have hd := H.edge.sound i hi
  have hn := H.mh.not_allInf (H.mh.vSub H.eh) (H.mh.edge_finite H.eh) hd
  obtain ⟨w, hw, hwI⟩ := Finset.not_subset.mp hn
  rw [List.mem_toFinset] at hw
  have hs := H.edge.sorted i hi
  cases hvs : E.vs i with
  | nil => rw [hvs] at hw; simp at hw
  | cons v0 l =>
    refine ⟨v0, by simp, hd.1 (by rw [hvs]; simp), fun hI => hwI ?_⟩
    rw [hvs] at hw hs
    have hwS : w ∈ S := H.mh.vSub H.eh (hd.1 (by rw [hvs]; simpa using hw))
    rw [mem_infPts H.hD] at hI ⊢
    refine ⟨?_, H.world.ids w hwS⟩
    have hle : v0 ≤ w := by
      rcases List.mem_cons.mp hw with rfl | hw
      · exact le_refl _
      · exact le_of_lt ((List.pairwise_cons.mp hs).1 w hw)
    have h1 := hI.1
    rw [Part.isFinite, decide_eq_false_iff_not] at h1 ⊢
    omega

omit [Module.Finite K W] in
theorem inOnePart_iff {vs : List Nat} : InOnePart ps vs ↔ ∃ j : Fin ps.length, vs.toFinset ⊆ infPts D ∪ finPts ps[j] := by
  constructor
  · rintro ⟨p, hp, hv⟩
    obtain ⟨j, hj, rfl⟩ := List.mem_iff_getElem.mp hp
    refine ⟨⟨j, hj⟩, fun v hm => ?_⟩
    have := hv v (List.mem_toFinset.mp hm)
    rw [H.split.points H.hD hp] at this
    exact this
  · rintro ⟨j, hj⟩
    refine ⟨ps[j], List.getElem_mem j.2, fun v hv => ?_⟩
    rw [H.split.points H.hD (p := ps[j]) (List.getElem_mem j.2)]
    exact hj (List.mem_toFinset.mpr hv)

theorem mergeIn (hm : ∀ j, (T j).MarksOk ∧ (T j).mark + 4 < 256) (hmE : E.MarksOk ∧ E.mark + 4 < 256) :
    MergeIn ps (List.ofFn T) eS E where
  disj := by
    rw [List.pairwise_cons]
    refine ⟨?_, ?_⟩
    · intro B hB
      obtain ⟨j, rfl⟩ := List.mem_ofFn.mp hB
      exact H.disjE j
    · rw [List.pairwise_ofFn]
      exact fun j k hjk => H.disj j k (ne_of_lt hjk)
  stored := by
    intro i hi
    obtain ⟨j, hj⟩ := (H.mem_eS i).mp hi
    exact ⟨T j, List.mem_ofFn.mpr ⟨j, rfl⟩, (Tri.contains_iff.mp (H.edge_contains hj)).1⟩
  ns := by
    intro B hB i hi hr n hn hf
    obtain ⟨j, rfl⟩ := List.mem_ofFn.mp hB
    exact (Tri.contains_iff.mp ((H.dt j).wf.ns i (H.edge_contains ((H.mem_eS_iff hr).mp hi)) n hn hf)).1
  vsLen := by
    intro B hB i hi hr
    obtain ⟨j, rfl⟩ := List.mem_ofFn.mp hB
    exact (H.dt j).len H.world.dim (H.edge_contains ((H.mem_eS_iff hr).mp hi))
  edgeLen := fun i hi => H.edge.len H.world.dim hi
  partId := by
    obtain ⟨n, ids, _, _, hid, _⟩ := H.split.splits
    exact hid
  one := by
    intro i hi v0 hv p hp p' hp' h1 h2
    obtain ⟨v, e, hvV, hvI⟩ := H.edge_first hi
    rw [hv] at e
    cases e
    have hS := H.mh.vSub H.eh hvV
    have hf : Part.isFinite D v0 = true := by
      by_contra hf
      exact hvI ((mem_infPts H.hD).mpr ⟨by simpa using hf, H.world.ids v0 hS⟩)
    obtain ⟨j, hj, rfl⟩ := List.mem_iff_getElem.mp hp
    obtain ⟨k, hk, rfl⟩ := List.mem_iff_getElem.mp hp'
    have := H.mh.disj ⟨j, hj⟩ ⟨k, hk⟩ v0 (Finset.mem_filter.mpr ⟨h1, hf⟩) (Finset.mem_filter.mpr ⟨h2, hf⟩)
    have hjk : j = k := Fin.ext_iff.mp this
    subst hjk
    rfl
  marks := by
    intro B hB
    rcases List.mem_cons.mp hB with rfl | hB
    · exact hmE.1
    · obtain ⟨j, rfl⟩ := List.mem_ofFn.mp hB
      exact (hm j).1
  mark := by
    intro B hB
    rcases List.mem_cons.mp hB with rfl | hB
    · exact hmE.2
    · obtain ⟨j, rfl⟩ := List.mem_ofFn.mp hB
      exact (hm j).2

omit [Module.Finite K W] in
theorem kept_iff {i : Nat} : (∃ B, Kept (List.ofFn T) eS B i) ↔
    ∃ j, (T j).contains i = true ∧ ¬ EdgeSpec (T j) (meets j) i := by
  constructor
  · rintro ⟨B, hB, hc, hn⟩
    obtain ⟨j, rfl⟩ := List.mem_ofFn.mp hB
    exact ⟨j, hc, fun he => hn ((H.mem_eS i).mpr ⟨j, he⟩)⟩
  · rintro ⟨j, hc, hn⟩
    exact ⟨T j, List.mem_ofFn.mpr ⟨j, rfl⟩, hc, fun he => hn ((H.mem_eS_iff (Tri.contains_iff.mp hc).1).mp he)⟩

omit [Module.Finite K W] in
theorem inserted_iff {i : Nat} : Inserted ps (List.ofFn T) eS E i ↔ E.contains i = true ∧
    ((¬ ∃ j : Fin ps.length, (E.vs i).toFinset ⊆ infPts D ∪ finPts ps[j]) ∨ ∃ j, Ed T meets j (E.vs i).toFinset) := by
  unfold Inserted
  rw [H.inOnePart_iff]
  refine and_congr_right fun hc => or_congr Iff.rfl ?_
  constructor
  · rintro ⟨B, hB, e, he, hr, hv⟩
    obtain ⟨j, rfl⟩ := List.mem_ofFn.mp hB
    exact ⟨j, e, (H.mem_eS_iff hr).mp he, by rw [hv]⟩
  · rintro ⟨j, e, he, hv⟩
    have hec := H.edge_contains he
    refine ⟨T j, List.mem_ofFn.mpr ⟨j, rfl⟩, e, (H.mem_eS e).mpr ⟨j, he⟩, (Tri.contains_iff.mp hec).1, ?_⟩
    refine List.Perm.eq_of_pairwise (le := fun a b : Nat => a < b) (fun a b _ _ h1 h2 => absurd h1 (lt_asymm h2))
      ((H.dt j).sorted e hec) (H.edge.sorted i hc) ?_
    rw [List.perm_ext_iff_of_nodup ((H.dt j).nodup hec) (H.edge.nodup hc)]
    intro w
    rw [← List.mem_toFinset, hv, List.mem_toFinset]

section Result
variable {hash : Nat → BitVec 32} {M : Tri} {ins : List Nat} {wu : List (BitVec 32 × Nat)}
  (HM : Merged hash ps (List.ofFn T) eS E M ins wu)
include HM

omit [Module.Finite K W] H in
theorem dataT {j : Fin ps.length} {i : Nat} (hi : i ∈ (T j).range) :
    M.vs i = (T j).vs i ∧ M.ns i = (T j).ns i :=
  HM.data (T j) (List.mem_cons_of_mem _ (List.mem_ofFn.mpr ⟨j, rfl⟩)) i hi

omit [Module.Finite K W] H in
theorem dataE {i : Nat} (hi : i ∈ E.range) : M.vs i = E.vs i ∧ M.ns i = E.ns i :=
  HM.data E List.mem_cons_self i hi

omit [Module.Finite K W] in
theorem mem_M {i : Nat} : M.contains i = true ↔
    (∃ j, (T j).contains i = true ∧ ¬ EdgeSpec (T j) (meets j) i) ∨
    (E.contains i = true ∧ ((¬ ∃ j : Fin ps.length, (E.vs i).toFinset ⊆ infPts D ∪ finPts ps[j]) ∨
      ∃ j, Ed T meets j (E.vs i).toFinset)) := by
  rw [HM.contains i, H.kept_iff, H.inserted_iff]

omit [Module.Finite K W] in
theorem not_Ed {j : Fin ps.length} {i : Nat} (hc : (T j).contains i = true)
    (hn : ¬ EdgeSpec (T j) (meets j) i) : ¬ Ed T meets j ((T j).vs i).toFinset := by
  rintro ⟨e, he, hv⟩
  have := (H.dt j).unique e i (H.edge_contains he) hc hv
  subst this
  exact hn he

theorem m_sound {i : Nat} (hi : M.contains i = true) : IsDel x h S (M.vs i).toFinset := by
  rcases (H.mem_M HM).mp hi with ⟨j, hc, hn⟩ | ⟨hc, hcond⟩
  · rw [(dataT HM (Tri.contains_iff.mp hc).1).1]
    exact H.mh.kept_isDel H.eh ((H.dt' j).sound i hc) (H.not_Ed HM hc hn)
  · rw [(dataE HM (Tri.contains_iff.mp hc).1).1]
    exact H.mh.inserted_isDel H.eh (H.edge.sound i hc) hcond

omit [Module.Finite K W] in
theorem m_sorted {i : Nat} (hi : M.contains i = true) : (M.vs i).Pairwise (· < ·) := by
  rcases (H.mem_M HM).mp hi with ⟨j, hc, hn⟩ | ⟨hc, hcond⟩
  · rw [(dataT HM (Tri.contains_iff.mp hc).1).1]; exact (H.dt j).sorted i hc
  · rw [(dataE HM (Tri.contains_iff.mp hc).1).1]; exact H.edge.sorted i hc

omit [Module.Finite K W] in
theorem m_len {i : Nat} (hi : M.contains i = true) : (M.vs i).length = D + 1 := by
  rcases (H.mem_M HM).mp hi with ⟨j, hc, hn⟩ | ⟨hc, hcond⟩
  · rw [(dataT HM (Tri.contains_iff.mp hc).1).1]; exact (H.dt j).len H.world.dim hc
  · rw [(dataE HM (Tri.contains_iff.mp hc).1).1]; exact H.edge.len H.world.dim hc

omit [Module.Finite K W] in
theorem m_nlen {i : Nat} (hi : M.contains i = true) : (M.ns i).length = D + 1 := by
  rcases (H.mem_M HM).mp hi with ⟨j, hc, hn⟩ | ⟨hc, hcond⟩
  · rw [(dataT HM (Tri.contains_iff.mp hc).1).2]; exact (H.dt j).nlen i hc
  · rw [(dataE HM (Tri.contains_iff.mp hc).1).2]; exact H.edge.nlen i hc

omit [Module.Finite K W] in
theorem m_id {i : Nat} (hi : M.contains i = true) : M.id i = i := by
  rcases (H.mem_M HM).mp hi with ⟨j, hc, hn⟩ | ⟨hc, hcond⟩
  · rw [HM.id (T j) (List.mem_cons_of_mem _ (List.mem_ofFn.mpr ⟨j, rfl⟩)) i (Tri.contains_iff.mp hc).1 hi]
    exact (H.dt j).id i hc
  · rw [HM.id E List.mem_cons_self i (Tri.contains_iff.mp hc).1 hi]
    exact H.edge.id i hc

omit [Module.Finite K W] in
theorem m_nodup {i : Nat} (hi : M.contains i = true) : (M.vs i).Nodup :=
  (H.m_sorted HM hi).imp (fun h => ne_of_lt h)

theorem m_complete {t : Finset Nat} (ht : IsDel x h S t) : ∃ i, M.contains i = true ∧ (M.vs i).toFinset = t := by
  rcases H.mh.isDel_kept_or_inserted H.eh ht with ⟨j, hd, hn⟩ | ⟨hd, hcond⟩
  · obtain ⟨i, hc, rfl⟩ := (H.dt' j).complete t hd
    refine ⟨i, (H.mem_M HM).mpr (Or.inl ⟨j, hc, fun he => hn ⟨i, he, rfl⟩⟩), ?_⟩
    rw [(dataT HM (Tri.contains_iff.mp hc).1).1]
  · obtain ⟨i, hc, rfl⟩ := H.edge.complete t hd
    refine ⟨i, (H.mem_M HM).mpr (Or.inr ⟨hc, hcond⟩), ?_⟩
    rw [(dataE HM (Tri.contains_iff.mp hc).1).1]

theorem m_unique {i k : Nat} (hi : M.contains i = true) (hk : M.contains k = true)
    (he : (M.vs i).toFinset = (M.vs k).toFinset) : i = k := by
  have hS := H.m_sound HM hi
  rcases (H.mem_M HM).mp hi with ⟨j, hc, hn⟩ | ⟨hc, hcond⟩ <;>
    rcases (H.mem_M HM).mp hk with ⟨j', hc', hn'⟩ | ⟨hc', hcond'⟩
  · rw [(dataT HM (Tri.contains_iff.mp hc).1).1] at he hS
    rw [(dataT HM (Tri.contains_iff.mp hc').1).1] at he
    have hd := ((H.dt' j).sound i hc).1
    have hd' := ((H.dt' j').sound k hc').1
    rw [← he] at hd'
    have := H.mh.part_unique hS hd hd'
    subst this
    exact (H.dt j).unique i k hc hc' he
  · rw [(dataT HM (Tri.contains_iff.mp hc).1).1] at he
    rw [(dataE HM (Tri.contains_iff.mp hc').1).1] at he
    rw [← he] at hcond'
    exact absurd hcond' (H.mh.kept_not_inserted H.eh ((H.dt' j).sound i hc) (H.not_Ed HM hc hn))
  · rw [(dataE HM (Tri.contains_iff.mp hc).1).1] at he
    rw [(dataT HM (Tri.contains_iff.mp hc').1).1] at he
    rw [he] at hcond
    exact absurd hcond (H.mh.kept_not_inserted H.eh ((H.dt' j').sound k hc') (H.not_Ed HM hc' hn'))
  · rw [(dataE HM (Tri.contains_iff.mp hc).1).1, (dataE HM (Tri.contains_iff.mp hc').1).1] at he
    exact H.edge.unique i k hc hc' he

omit [Module.Finite K W] in
/-- Acceptance is adjacency. -/
theorem m_accept {a c d : Nat} (ha : M.contains a = true) (hc : M.contains c = true) (hd : d < D + 1) :
    accept D M a d c = true ↔ Across (M.vs a).toFinset ((M.vs a).getD d 0) (M.vs c).toFinset := by
  have hv : (M.vs a).getD d 0 ∈ M.vs a := getD_mem (by rw [H.m_len HM ha]; exact hd)
  rw [accept_iff, ← shared_across (H.m_sorted HM ha) (H.m_sorted HM hc) (H.m_len HM ha) (H.m_len HM hc) hv]
  constructor
  · rintro ⟨_, _, _, h1, h2⟩; exact ⟨h1, h2⟩
  · rintro ⟨h1, h2⟩
    refine ⟨?_, ?_, hc, h1, h2⟩
    · rw [H.m_id HM ha]
      rintro rfl
      have : Simplex.containsVs ((M.vs c).getD d 0) (M.vs c) = true :=
        (Simplex.C31_contains ⟨0, M.vs c, [], 0#32, 0⟩ _ ((H.m_sorted HM ha).imp (fun h => le_of_lt h))).mpr hv
      rw [this] at h2
      exact absurd h2 (by simp)
    · rw [← H.m_id HM hc]
      exact (Tri.contains_iff.mp hc).2

omit [Module.Finite K W] in
/-- An entry that is not broken is right. -/
theorem m_notBroken {a d : Nat} (ha : M.contains a = true) (hd : d < D + 1) (hb : ¬ Broken D M a d) :
    M.contains ((M.ns a).getD d 0) = true ∧
      Across (M.vs a).toFinset ((M.vs a).getD d 0) (M.vs ((M.ns a).getD d 0)).toFinset := by
  unfold Broken at hb
  rw [needsUpdate_iff] at hb
  push_neg at hb
  obtain ⟨h1, h2, _⟩ := hb
  have hcn : M.contains ((M.ns a).getD d 0) = true := by simpa using h2
  refine ⟨hcn, ?_⟩
  rcases (H.mem_M HM).mp ha with ⟨j, hc, hn⟩ | ⟨hc, hcond⟩
  · obtain ⟨e1, e2⟩ := dataT HM (Tri.contains_iff.mp hc).1
    rcases (H.dt j).nbr a hc d hd with ⟨h3, h4⟩ | ⟨h3, _⟩
    · rw [e1, e2, (dataT HM (Tri.contains_iff.mp h3).1).1]; exact h4
    · rw [e2] at h1; exact absurd h3 h1
  · obtain ⟨e1, e2⟩ := dataE HM (Tri.contains_iff.mp hc).1
    rcases H.edge.nbr a hc d hd with ⟨h3, h4⟩ | ⟨h3, _⟩
    · rw [e1, e2, (dataE HM (Tri.contains_iff.mp h3).1).1]; exact h4
    · rw [e2] at h1; exact absurd h3 h1

/-- A kept simplex that was adjacent to an edge simplex is in the face index. -/
theorem m_firstLayer {j : Fin ps.length} {c e d : Nat} (hc : (T j).contains c = true)
    (hn : ¬ EdgeSpec (T j) (meets j) c) (he : EdgeSpec (T j) (meets j) e) {v : Nat}
    (ha : Across ((T j).vs c).toFinset v ((T j).vs e).toFinset) (hd : d < D + 1) :
    (faceKey hash (M.vs c) d, c) ∈ wu := by
  have hcr := (Tri.contains_iff.mp hc).1
  have her := (Tri.contains_iff.mp (H.edge_contains he)).1
  have hcS : c ∉ eS := fun h => hn ((H.mem_eS_iff hcr).mp h)
  obtain ⟨u, hu⟩ := ha.symm
  have hmem := (H.dt' j).mem_ns (H.edge_contains he) hc hu H.world.dim
  rw [HM.wu]
  left
  refine ⟨T j, List.mem_ofFn.mpr ⟨j, rfl⟩, hcr, ⟨(H.dt j).ne_inf hc, ?_, e, ?_, hmem⟩, hcS, d, hd, ?_⟩
  · exact fun h => hcS (Finset.mem_inter.mp h).1
  · exact Finset.mem_inter.mpr ⟨(H.mem_eS e).mpr ⟨j, he⟩, her⟩
  · rw [(dataT HM hcr).1]

/-- A kept simplex with a broken entry across which there is a simplex: the entry was an edge simplex and the
simplex now across is inserted. -/
theorem m_kept_broken {j : Fin ps.length} {a d : Nat} (hc : (T j).contains a = true)
    (hn : ¬ EdgeSpec (T j) (meets j) a) (hd : d < D + 1) (hb : Broken D M a d) {t : Finset Nat}
    (ht : IsDel x h S t) (hac : Across (M.vs a).toFinset ((M.vs a).getD d 0) t) :
    (∃ e, EdgeSpec (T j) (meets j) e ∧ Across ((T j).vs a).toFinset (((T j).vs a).getD d 0) ((T j).vs e).toFinset) ∧
    ∃ c, M.contains c = true ∧ (M.vs c).toFinset = t ∧ E.contains c = true ∧ Inserted ps (List.ofFn T) eS E c := by
  have har := (Tri.contains_iff.mp hc).1
  obtain ⟨e1, e2⟩ := dataT HM har
  rw [e1] at hac
  have hM : M.contains a = true := (H.mem_M HM).mpr (Or.inl ⟨j, hc, hn⟩)
  have haS := H.m_sound HM hM
  rw [e1] at haS
  have hinner := (across_iff_inner H.world.gp H.world.inf H.world.cone haS).mp ⟨t, ht, hac⟩
  obtain ⟨t', ht', hac'⟩ := (across_iff_inner (H.world.gp.mono (H.mh.partSub j)) Finset.subset_union_left
    (fun i hi => H.world.cone i (H.mh.partSub j hi)) ((H.dt' j).sound a hc)).mpr hinner
  rcases (H.dt' j).nbr a hc d hd with ⟨h1, h2⟩ | ⟨_, h2⟩
  · have hedge : EdgeSpec (T j) (meets j) (((T j).ns a).getD d 0) := by
      by_contra hne
      have hMn : M.contains (((T j).ns a).getD d 0) = true := (H.mem_M HM).mpr (Or.inl ⟨j, h1, hne⟩)
      unfold Broken at hb
      rw [needsUpdate_iff, e2] at hb
      have hnr := (Tri.contains_iff.mp h1).1
      rcases hb with hb | hb | hb
      · exact (H.dt j).ne_inf h1 hb
      · rw [hMn] at hb; exact absurd hb (by simp)
      · apply hb
        have := (H.m_accept HM hM hMn hd).mpr (by rw [e1, (dataT HM hnr).1]; exact h2)
        exact (accept_iff.mp this).2.2.2.1
    refine ⟨⟨_, hedge, h2⟩, ?_⟩
    obtain ⟨hV, hcond⟩ := H.mh.neighbor_inserted H.eh ((H.dt' j).sound a hc) (H.not_Ed HM hc hn)
      ⟨_, hedge, rfl⟩ h2 ht hac
    obtain ⟨c, hcc, rfl⟩ := H.edge.complete t hV
    exact ⟨c, (H.mem_M HM).mpr (Or.inr ⟨hcc, hcond⟩), by rw [(dataE HM (Tri.contains_iff.mp hcc).1).1], hcc,
      H.inserted_iff.mpr ⟨hcc, hcond⟩⟩
  · exact absurd hac' (h2 t' ht')

omit [Module.Finite K W] H in
theorem m_wu_inserted {c d : Nat} (hI : Inserted ps (List.ofFn T) eS E c) (hd : d < D + 1) :
    (faceKey hash (M.vs c) d, c) ∈ wu := by
  rw [HM.wu]
  right
  exact ⟨hI, d, hd, by rw [(dataE HM (Tri.contains_iff.mp hI.1).1).1]⟩

/-- If there is a simplex across a broken facet, the face index offers it. -/
theorem m_offer {get : BitVec 32 → List Nat} (hget : IsLookup wu get) {a d : Nat} (ha : M.contains a = true)
    (hd : d < D + 1) (hb : Broken D M a d) {t : Finset Nat} (ht : IsDel x h S t)
    (hac : Across (M.vs a).toFinset ((M.vs a).getD d 0) t) : ∃ c, Offer D hash M get a d c := by
  obtain ⟨c, hc, hct⟩ := H.m_complete HM ht
  refine ⟨c, (hget _ _).mpr ?_, (H.m_accept HM ha hc hd).mpr (by rw [hct]; exact hac)⟩
  obtain ⟨d', hd', hkey⟩ := faceKey_across hash (H.m_nodup HM ha) (H.m_nodup HM hc) (d := d)
    (by rw [H.m_len HM ha]; exact hd) (by rw [hct]; exact hac)
  rw [H.m_len HM hc] at hd'
  rw [← hkey]
  by_cases hI : Inserted ps (List.ofFn T) eS E c
  · exact m_wu_inserted HM hI hd'
  · rcases (H.mem_M HM).mp hc with ⟨k, hck, hnk⟩ | hcI
    · rcases (H.mem_M HM).mp ha with ⟨j, hcj, hnj⟩ | ⟨hcE, hcond⟩
      · obtain ⟨_, c', h1, h2, h3, h4⟩ := H.m_kept_broken HM hcj hnj hd hb ht hac
        have := H.m_unique HM hc h1 (hct.trans h2.symm)
        subst this
        exact absurd h4 hI
      · have hac' := hac
        rw [← hct] at hac'
        obtain ⟨u, hu⟩ := hac'.symm
        rw [(dataE HM (Tri.contains_iff.mp hcE).1).1, (dataT HM (Tri.contains_iff.mp hck).1).1] at hu
        obtain ⟨_, ⟨e, he, rfl⟩, hae⟩ := H.mh.neighbor_firstLayer H.eh ((H.dt' k).sound c hck)
          (H.not_Ed HM hck hnk) (H.edge.sound a hcE) hcond hu
        exact H.m_firstLayer HM hck hnk he hae hd'
    · exact absurd (H.inserted_iff.mpr hcI) hI

/-- A kept simplex with a broken entry across which there is a simplex is processed. -/
theorem m_proc {get : BitVec 32 → List Nat} (hget : IsLookup wu get) {j : Fin ps.length} {a d : Nat}
    (hc : (T j).contains a = true) (hn : ¬ EdgeSpec (T j) (meets j) a) (hd : d < D + 1) (hb : Broken D M a d)
    {t : Finset Nat} (ht : IsDel x h S t) (hac : Across (M.vs a).toFinset ((M.vs a).getD d 0) t) :
    Proc D hash M get ins a := by
  have hM : M.contains a = true := (H.mem_M HM).mpr (Or.inl ⟨j, hc, hn⟩)
  obtain ⟨⟨e, he, hae⟩, c, hcM, rfl, hcE, hI⟩ := H.m_kept_broken HM hc hn hd hb ht hac
  obtain ⟨u, hu⟩ := hac.symm
  obtain ⟨d', hd', hv'⟩ := mem_getD (List.mem_toFinset.mp hu.1)
  rw [H.m_len HM hcM] at hd'
  rw [← hv'] at hu
  refine Proc.next c d' a (Proc.start c ((HM.ins c).mpr hI)) hd' ?_ ⟨(hget _ _).mpr ?_, ?_⟩
  · by_contra hnb
    obtain ⟨h1, h2⟩ := H.m_notBroken HM hcM hd' hnb
    have hvs := across_unique (H.m_sound HM hcM) (H.m_sound HM h1) (H.m_sound HM hM) h2 hu
    have := H.m_unique HM h1 hM hvs
    rw [(dataE HM (Tri.contains_iff.mp hcE).1).2] at this
    rcases H.edge.nbr c hcE d' hd' with ⟨h3, _⟩ | ⟨h3, _⟩
    · rw [this] at h3
      exact Finset.disjoint_left.mp (H.disjE j) (Tri.contains_iff.mp h3).1 (Tri.contains_iff.mp hc).1
    · rw [this] at h3
      exact (H.dt j).ne_inf hc h3
  · obtain ⟨d'', hd'', hkey⟩ := faceKey_across hash (H.m_nodup HM hcM) (H.m_nodup HM hM) (d := d')
      (by rw [H.m_len HM hcM]; exact hd') hu
    rw [H.m_len HM hM] at hd''
    rw [← hkey]
    exact H.m_firstLayer HM hc hn he hae hd''
  · exact (H.m_accept HM hcM hM hd').mpr hu

end Result

/-- One merge is correct. -/
theorem result {hash : Nat → BitVec 32} {R : Tri}
    (hm : ∀ j, (T j).MarksOk ∧ (T j).mark + 4 < 256) (hmE : E.MarksOk ∧ E.mark + 4 < 256)
    (hR : MergeTri hash ps (List.ofFn T) eS E R) : IsDT D x h S R := by
  have hin := H.mergeIn hm hmE
  have hhull := C50_hull hash _ _ _ _ R hin (by
    intro B hB
    obtain ⟨j, rfl⟩ := List.mem_ofFn.mp hB
    exact (H.dt j).hull) hR
  obtain ⟨M, ins, wu, HM, get, ns, mks, hget, hfin, rfl⟩ := merged hin hR
  have hmark : M.mark + 2 < 256 := by
    obtain ⟨B, hB, hk⟩ := HM.mark
    have := hin.mark B hB
    omega
  have htc : ∀ i ∈ ins, M.contains i = true := fun i hi => (HM.contains i).mpr (Or.inr ((HM.ins i).mp hi))
  have hproc : ∀ a, Proc D hash M get ins a → M.contains a = true := by
    intro a ha
    cases ha with
    | start _ h => exact htc a h
    | next _ _ _ _ _ _ ho => exact (accept_iff.mp ho.2).2.2.1
  obtain ⟨hlen, hrep, hkeep⟩ := C51_updateNeighbors D hash M get ins ns mks
    (fun a ha => H.m_nlen HM (hproc a ha)) hmark HM.marks (fun i hi => (Tri.contains_iff.mp (htc i hi)).1) hfin
  refine
    { sound := fun i hi => H.m_sound HM hi
      complete := fun t ht => H.m_complete HM ht
      unique := fun i k hi hk he => H.m_unique HM hi hk he
      sorted := fun i hi => H.m_sorted HM hi
      id := fun i hi => H.m_id HM hi
      nlen := fun i hi => (hlen i).trans (H.m_nlen HM hi)
      nbr := ?_
      hull := hhull }
  intro i hi d hd
  change M.contains i = true at hi
  change (M.contains ((ns i).getD d 0) = true ∧
      Across (M.vs i).toFinset ((M.vs i).getD d 0) (M.vs ((ns i).getD d 0)).toFinset) ∨
    ((ns i).getD d 0 = sINF ∧ ∀ t, IsDel x h S t → ¬ Across (M.vs i).toFinset ((M.vs i).getD d 0) t)
  by_cases hb : Broken D M i d
  · by_cases hp : Proc D hash M get ins i
    · rcases hrep i d hp hd hb with ho | ⟨h1, h2⟩
      · left
        have hcc := (accept_iff.mp ho.2).2.2.1
        exact ⟨hcc, (H.m_accept HM hi hcc hd).mp ho.2⟩
      · right
        refine ⟨h1, fun t ht hac => ?_⟩
        obtain ⟨c, hc⟩ := H.m_offer HM hget hi hd hb ht hac
        exact h2 c hc
    · right
      have hk := hkeep i d (fun h => hp h.1)
      rcases (H.mem_M HM).mp hi with ⟨j, hc, hn⟩ | hI
      · have hno : ∀ t, IsDel x h S t → ¬ Across (M.vs i).toFinset ((M.vs i).getD d 0) t :=
          fun t ht hac => hp (H.m_proc HM hget hc hn hd hb ht hac)
        refine ⟨?_, hno⟩
        obtain ⟨e1, e2⟩ := dataT HM (Tri.contains_iff.mp hc).1
        rw [hk, e2]
        rcases (H.dt' j).nbr i hc d hd with ⟨h1, h2⟩ | ⟨h1, _⟩
        · exfalso
          have hinner := (across_iff_inner (H.world.gp.mono (H.mh.partSub j)) Finset.subset_union_left
            (fun i hi => H.world.cone i (H.mh.partSub j hi)) ((H.dt' j).sound i hc)).mp
            ⟨_, (H.dt' j).sound _ h1, h2⟩
          have hS := H.m_sound HM hi
          rw [e1] at hS hno
          obtain ⟨t, ht, hac⟩ := (across_iff_inner H.world.gp H.world.inf H.world.cone hS).mpr hinner
          exact hno t ht hac
        · exact h1
      · exact absurd (Proc.start i ((HM.ins i).mpr (H.inserted_iff.mpr hI))) hp
  · left
    have hk := hkeep i d (fun h => hb h.2.2)
    rw [hk]
    exact H.m_notBroken HM hi hd hb

end NodeHyp

end Node

end DC
end Verif
