import Verif.Props.LB
import Verif.Props.Construct
import Verif.Props.Collect

/-!
# C80: the load-balanced triangulator with the trees of the partitioners
-/
namespace Verif

namespace PTree
variable {C : Type}

theorem sub_append (t : PTree C) (p q : List Nat) : sub t (p ++ q) = (sub t p).bind fun s => sub s q := by
  induction p generalizing t with
  | nil => simp
  | cons i p ih =>
    cases t with
    | leaf c ids => simp
    | node c l =>
      rw [List.cons_append, sub_node, sub_node]
      cases l[i]? with
      | none => rfl
      | some t' => simp only [Option.bind_some]; exact ih t'

/-- Every subtree has a leaf. -/
def Leafy (t : PTree C) : Prop := ∀ p s, sub t p = some s → ∃ q c ids, sub s q = some (leaf c ids)

variable {D : Nat} {K : Type} [Field K] [LinearOrder K]

/-- The children of a node with several children are separated: no finite point of one child is in the convex hull of the
finite points of another child. -/
def Separated [IsStrictOrderedRing K] (pts : Nat → Vec D K) (t : PTree (Chk D K)) : Prop :=
  ∀ p c l, sub t p = some (node c l) → 1 < l.length → ∀ (i j : Nat) (a b : PTree (Chk D K)), l[i]? = some a → l[j]? = some b →
    i ≠ j → ∀ v ∈ b.collectIds, v < 2 ^ 64 - 2 ^ D →
      pts v ∉ convexHull K (pts '' {u | u ∈ a.collectIds ∧ u < 2 ^ 64 - 2 ^ D})

/-- A node with several children has two children with finite points. -/
def TwoFin (D : Nat) (t : PTree C) : Prop :=
  ∀ p c l, sub t p = some (node c l) → 1 < l.length → ∃ (i j : Nat) (a b : PTree C), l[i]? = some a ∧ l[j]? = some b ∧ i ≠ j ∧
    (∃ v ∈ a.collectIds, v < 2 ^ 64 - 2 ^ D) ∧ ∃ v ∈ b.collectIds, v < 2 ^ 64 - 2 ^ D

end PTree

namespace DC
open Del Euc PTree

variable {K : Type} [Field K] [LinearOrder K] [IsStrictOrderedRing K]
variable {D : Nat} {pts : Nat → Vec D K} {h : Nat → K} {S : Finset Nat} {t : PTree (Chk D K)} {T : Tri}

omit [IsStrictOrderedRing K] [Field K] [LinearOrder K] in
theorem LBTri.leafy {A : LBParams D K} {len : Nat} (hT : LBTri A len t T) : Leafy t := by
  induction hT with
  | leaf len c S T hb =>
    intro p s hs
    cases p with
    | nil => rw [sub_nil] at hs; cases hs; exact ⟨[], _, _, sub_nil _⟩
    | cons i q => simp at hs
  | single len c c' S T hb =>
    intro p s hs
    cases p with
    | nil => rw [sub_nil] at hs; cases hs; exact ⟨[0], c', S, by simp⟩
    | cons i q =>
      rw [sub_node] at hs
      cases i with
      | zero =>
        simp only [List.getElem?_cons_zero, Option.bind_some] at hs
        cases q with
        | nil => rw [sub_nil] at hs; cases hs; exact ⟨[], _, _, sub_nil _⟩
        | cons i q => simp at hs
      | succ i => simp at hs
  | node len c l hl cps hcp dts hlen hrec pcs hpcs dts' hlen' eS eP hedge E hE hdisj R hm ih =>
    have hcps : cps = l := by
      by_cases hc : ∀ t ∈ l, PTree.Checked t
      · rw [(PTree.copyAll_spec l).1 hc] at hcp; exact (Option.some.inj hcp).symm
      · rw [(PTree.copyAll_spec l).2 (by simpa using hc)] at hcp; simp at hcp
    subst hcps
    have hch : ∀ (i : Nat) (t : PTree (Chk D K)), cps[i]? = some t → Leafy t := by
      intro i t ht
      obtain ⟨hi, _⟩ := List.getElem?_eq_some_iff.mp ht
      exact ih i t (dts[i]'(by omega)) ht (List.getElem?_eq_getElem _)
    intro p s hs
    cases p with
    | nil =>
      rw [sub_nil] at hs
      cases hs
      have h0 : cps[0]? = some cps[0] := List.getElem?_eq_getElem _
      obtain ⟨q, c', ids, h1⟩ := hch 0 _ h0 [] _ (sub_nil _)
      exact ⟨0 :: q, c', ids, by rw [sub_node, h0]; exact h1⟩
    | cons i q =>
      rw [sub_node] at hs
      cases ht : cps[i]? with
      | none => rw [ht] at hs; simp at hs
      | some t' => rw [ht] at hs; exact hch i t' ht q s hs

theorem Shape.leafy {C : Type} : ∀ (H : Nat) {t : PTree C}, (∀ p s, sub t p = some s → p.length ≤ H) → Shape t → Leafy t := by
  intro H
  induction H with
  | zero =>
    intro t hH hsh p s hs
    have hp : p = [] := List.length_eq_zero_iff.mp (by have := hH p s hs; omega)
    subst hp
    rw [sub_nil] at hs
    cases hs
    cases t with
    | leaf c ids => exact ⟨[], c, ids, sub_nil _⟩
    | node c l =>
      obtain ⟨h1, _⟩ := hsh [] c l (sub_nil _)
      have h0 : l[0]? = some (l[0]'(List.length_pos_of_ne_nil h1)) := List.getElem?_eq_getElem _
      have := hH [0] _ (by rw [sub_node, h0]; rfl)
      simp at this
  | succ H ih =>
    intro t hH hsh p s hs
    cases t with
    | leaf c ids =>
      cases p with
      | nil => rw [sub_nil] at hs; cases hs; exact ⟨[], c, ids, sub_nil _⟩
      | cons i q => simp at hs
    | node c l =>
      have hch : ∀ (i : Nat) (t : PTree C), l[i]? = some t → Leafy t := by
        intro i t ht
        refine ih (fun p s hs => ?_) fun p c' l' hs => hsh (i :: p) c' l' (by rw [sub_node, ht]; exact hs)
        have := hH (i :: p) s (by rw [sub_node, ht]; exact hs)
        simpa using this
      cases p with
      | nil =>
        rw [sub_nil] at hs
        cases hs
        obtain ⟨h1, _⟩ := hsh [] c l (sub_nil _)
        have h0 : l[0]? = some (l[0]'(List.length_pos_of_ne_nil h1)) := List.getElem?_eq_getElem _
        obtain ⟨q, c', ids, h1⟩ := hch 0 _ h0 [] _ (sub_nil _)
        exact ⟨0 :: q, c', ids, by rw [sub_node, h0]; exact h1⟩
      | cons i q =>
        rw [sub_node] at hs
        cases ht : l[i]? with
        | none => rw [ht] at hs; simp at hs
        | some t' => rw [ht] at hs; exact hch i t' ht q s hs

/-- What C80 needs of the tree: its leaves split `S` (C63), the checkers are sound (C82), siblings are separated and two of
them have finite points. -/
structure GoodTree (pts : Nat → Vec D K) (S : Finset Nat) (t : PTree (Chk D K)) : Prop where
  splits : Splits D S t
  within : t.collectIds ⊆ S
  covered : Covered pts t
  sep : Separated pts t
  two : TwoFin D t

omit [Field K] [LinearOrder K] [IsStrictOrderedRing K] in
theorem splits_collect (hsp : Splits D S t) (hin : t.collectIds ⊆ S) (hids : ∀ i ∈ S, i < 2 ^ 64) (hlf : Leafy t) :
    t.collectIds = S := by
  refine Finset.Subset.antisymm hin fun v hv => ?_
  by_cases hf : v < 2 ^ 64 - 2 ^ D
  · obtain ⟨p, ⟨c, ids, h1, h2⟩, _⟩ := hsp.1 v hf hv
    exact (mem_collectIds t v).mpr ⟨p, ids, ⟨c, h1⟩, h2⟩
  · obtain ⟨q, c, ids, h1⟩ := hlf [] t (sub_nil _)
    exact (mem_collectIds t v).mpr ⟨q, ids, ⟨c, h1⟩, (hsp.2 q c ids h1).2 v (by omega) (hids v hv)⟩

theorem GoodTree.treeOk (A : LBParams D K) (hg : GoodTree pts S t) (hs : Scene D pts S) (ht : Tie pts h S)
    (hcs : CircumOk pts A.cs S) (hlf : Leafy t) : TreeOk A (fun i => hom (pts i)) h S t := by
  intro p c l hsub hl
  have hck : ∀ a ∈ l, a.chk ≠ none := by
    intro a ha
    obtain ⟨i, hi⟩ := List.mem_iff_getElem?.mp ha
    obtain ⟨c', hc', _⟩ := hg.covered (p ++ [i]) a (by simp) (by rw [sub_append, hsub]; simp [hi])
    rw [hc']; simp
  obtain ⟨pcs, h1, h2, h3⟩ := PTree.toOldFrom_some l 0 hck
  have hat : ∀ (i : Nat) (a : PTree (Chk D K)), l[i]? = some a → ∀ v, v ∈ a.collectIds → v < 2 ^ 64 - 2 ^ D →
      ∃ q c' ids, sub t (p ++ i :: q) = some (leaf c' ids) ∧ v ∈ ids := by
    intro i a hi v hv hf
    obtain ⟨q, ids, ⟨c', h4⟩, h5⟩ := (mem_collectIds a v).mp hv
    exact ⟨q, c', ids, by rw [sub_append, hsub]; simp [hi, h4], h5⟩
  have hmemS : ∀ v, v ∈ collectAll l → v ∈ S := fun v hv => hg.within (collect_sub hsub hv)
  have hmem : ∀ v, v ∈ collectAll l ↔ ∃ (i : Nat) (a : PTree (Chk D K)), l[i]? = some a ∧ v ∈ a.collectIds := by
    intro v
    rw [mem_collectAll]
    constructor
    · rintro ⟨a, ha, q, ids, h4⟩
      obtain ⟨i, hi⟩ := List.mem_iff_getElem?.mp ha
      exact ⟨i, a, hi, (mem_collectIds a v).mpr ⟨q, ids, h4⟩⟩
    · rintro ⟨i, a, hi, hv⟩
      exact ⟨a, List.mem_of_getElem? hi, (mem_collectIds a v).mp hv⟩
  have hps : ∀ (i : Nat) (q : Part.Partition D K), (pcs.map Prod.fst)[i]? = some q ↔
      ∃ a c', l[i]? = some a ∧ a.chk = some c' ∧ q = ⟨i, a.collectIds, c'.bounds⟩ := by
    intro i q
    constructor
    · intro hq
      have hi : i < l.length := by
        obtain ⟨hi, _⟩ := List.getElem?_eq_some_iff.mp hq
        rw [List.length_map] at hi
        omega
      obtain ⟨c', h4, h5⟩ := h3 i l[i] (List.getElem?_eq_getElem hi)
      rw [List.getElem?_map, h5] at hq
      have := Option.some.inj hq
      simp only [Nat.zero_add] at this
      exact ⟨l[i], c', List.getElem?_eq_getElem hi, h4, this.symm⟩
    · rintro ⟨a, c', ha, hc', rfl⟩
      obtain ⟨c'', h4, h5⟩ := h3 i a ha
      rw [h4] at hc'
      cases hc'
      rw [List.getElem?_map, h5]
      simp
  refine ⟨pcs, h1, ⟨⟨_, (collectAll l).toList, by simp, rfl, ?_, ?_, ?_, ?_⟩, ?_, ?_⟩, ?_⟩
  · intro i q hq
    obtain ⟨a, c', _, _, rfl⟩ := (hps i q).mp hq
    rfl
  · intro v hv hf
    rw [Finset.mem_toList] at hv
    obtain ⟨i, a, hi, hva⟩ := (hmem v).mp hv
    obtain ⟨q, c', ids, h4, h5⟩ := hat i a hi v hva hf
    have huniq := hg.splits.1 v hf (hmemS v hv)
    obtain ⟨ca, hca, _⟩ := h3 i a hi
    refine ⟨i, ⟨_, (hps i _).mpr ⟨a, ca, hi, hca, rfl⟩, hva⟩, ?_⟩
    rintro j ⟨q', hq', hvq⟩
    obtain ⟨b, cb, hj, hcb, rfl⟩ := (hps j q').mp hq'
    obtain ⟨q'', c'', ids'', h6, h7⟩ := hat j b hj v hvq hf
    have := huniq.unique ⟨c', ids, h4, h5⟩ ⟨c'', ids'', h6, h7⟩
    have := List.append_cancel_left this
    simp only [List.cons.injEq] at this
    exact this.1.symm
  · intro v hf hv q hq hvq
    obtain ⟨i, hi⟩ := List.mem_iff_getElem?.mp hq
    obtain ⟨a, c', ha, _, rfl⟩ := (hps i q).mp hi
    exact hv (Finset.mem_toList.mpr ((hmem v).mpr ⟨i, a, ha, hvq⟩))
  · intro v hf q hq
    obtain ⟨i, hi⟩ := List.mem_iff_getElem?.mp hq
    obtain ⟨a, c', ha, _, rfl⟩ := (hps i q).mp hi
    simp only [true_and]
    constructor
    · intro hv
      exact hs.ids v (hmemS v ((hmem v).mpr ⟨i, a, ha, hv⟩))
    · intro hlt
      obtain ⟨q, c'', ids, h4⟩ := hlf (p ++ [i]) a (by rw [sub_append, hsub]; simp [ha])
      have h5 : sub t (p ++ i :: q) = some (leaf c'' ids) := by rw [sub_append, hsub]; simp [ha, h4]
      exact (mem_collectIds a v).mpr ⟨q, ids, ⟨c'', h4⟩, (hg.splits.2 _ _ _ h5).2 v hf hlt⟩
  · intro j k q q' hj hk hjk v hv hc
    obtain ⟨a, ca, ha, _, rfl⟩ := (hps j q).mp hj
    obtain ⟨b, cb, hb, _, rfl⟩ := (hps k q').mp hk
    obtain ⟨hv1, hv2⟩ := Finset.mem_filter.mp hv
    rw [inCone_iff] at hc
    refine hg.sep p c l hsub hl j k a b ha hb hjk v hv1 (Part.isFinite_iff'.mp hv2) ?_
    have : pts '' ((finPts (⟨j, a.collectIds, ca.bounds⟩ : Part.Partition D K) : Finset Nat) : Set Nat) =
        pts '' {u | u ∈ a.collectIds ∧ u < 2 ^ 64 - 2 ^ D} := by
      congr 1
      ext u
      simp [finPts, Part.isFinite_iff']
    rwa [this] at hc
  · obtain ⟨i, j, a, b, ha, hb, hij, ⟨v, hv, hvf⟩, w, hw, hwf⟩ := hg.two p c l hsub hl
    obtain ⟨ca, hca, _⟩ := h3 i a ha
    obtain ⟨cb, hcb, _⟩ := h3 j b hb
    refine ⟨i, j, _, _, (hps i _).mpr ⟨a, ca, ha, hca, rfl⟩, (hps j _).mpr ⟨b, cb, hb, hcb, rfl⟩, hij, ⟨v, ?_⟩, ⟨w, ?_⟩⟩
    · exact Finset.mem_filter.mpr ⟨hv, Part.isFinite_iff'.mpr hvf⟩
    · exact Finset.mem_filter.mpr ⟨hw, Part.isFinite_iff'.mpr hwf⟩
  · intro pc hpc vs hnd hvs hsimp v hv hvl hlt
    obtain ⟨i, hi⟩ := List.mem_iff_getElem?.mp hpc
    have hil : i < l.length := by
      obtain ⟨hi, _⟩ := List.getElem?_eq_some_iff.mp hi
      omega
    have hli : l[i]? = some l[i] := List.getElem?_eq_getElem hil
    obtain ⟨ca, hca, h4⟩ := h3 i l[i] hli
    rw [hi] at h4
    obtain rfl := Option.some.inj h4
    obtain ⟨c', hc', hcov⟩ := hg.covered (p ++ [i]) l[i] (by simp) (by rw [sub_append, hsub]; simp [hli])
    rw [hca] at hc'
    obtain rfl := Option.some.inj hc'
    obtain ⟨hv1, hv2⟩ := Finset.mem_filter.mp hv
    obtain ⟨r1, r2⟩ := hcs vs hnd hvs (isSimp_iff.mp hsimp)
    refine hcov (A.cs vs) vs v r1 hv1 (Part.isFinite_iff'.mp hv2) ?_
    by_contra hgt
    push_neg at hgt
    obtain ⟨a, ha⟩ := hsimp.exists_interp h
    have hb' := interp_ball (t := vs.toFinset).mpr (fun v hv => r2 v (List.mem_toFinset.mp hv))
    have := (ht.refines _ hvs hsimp _ _ hb' (interp_spec ha) v (hmemS v hvl)).2 (by
      rw [ball_hom]
      have e : dist2 (pts v) (A.cs vs).center = ∑ i, (pts v i - (A.cs vs).center i) * (pts v i - (A.cs vs).center i) := rfl
      linarith)
    exact lt_asymm this hlt

section
variable {hash : Nat → BitVec 32} {depth cutoff : Nat} {parBase parEdge : Bool} {seq : Finset Nat → Tri → Prop}
  {big tiny : K} {cs : List Nat → Sphere D K} {H : Nat}

/-- Requirements on the setting: the circumspheres are right, the marks do not wrap, and, if it is used, the parallel base
triangulator works (C52). -/
structure LBSettingOk (depth cutoff : Nat) (parBase parEdge : Bool) (big tiny : K) (pts : Nat → Vec D K)
    (cs : List Nat → Sphere D K) (S : Finset Nat) (H : Nat) : Prop where
  dim : D ≤ 64
  circ : CircumOk pts cs S
  par : parBase = true ∨ parEdge = true → SettingOk depth cutoff .cycle big tiny pts cs S ∧ depth + H ≤ 42
  levels : H ≤ 42

/-- Mark of the results of the base triangulators. -/
def baseMark (depth : Nat) (parBase parEdge : Bool) : Nat := if parBase = true ∨ parEdge = true then 6 * depth else 0

theorem LBSettingOk.base (hq : LBSettingOk depth cutoff parBase parEdge big tiny pts cs S H) (hs : Scene D pts S)
    (ht : Tie pts h S) (hb : BaseOk pts h seq S) :
    LBBaseOk (lbParams hash depth cutoff parBase parEdge seq big tiny pts cs) (fun i => hom (pts i)) h S
      (baseMark depth parBase parEdge) ∧ baseMark depth parBase parEdge + 6 * H < 256 := by
  refine ⟨?_, ?_⟩
  · intro par len V T hpar hlen hI hV hT
    by_cases hp : par = true
    · have hor : parBase = true ∨ parEdge = true := by
        rcases hpar with rfl | rfl
        · exact Or.inl hp
        · exact Or.inr hp
      have hst := (hq.par hor).1
      have hT' : Triangulate (params hash depth cutoff true seq .cycle big tiny pts cs) len V T := by
        have : (if par = true then Triangulate (params hash depth cutoff true seq .cycle big tiny pts cs) len V T else seq V T) := hT
        rwa [if_pos hp] at this
      obtain ⟨h1, h2, h3⟩ := triangulate_correct _ hq.dim (hs.world ht) (hst.params hs ht hb) len V T hT' hlen hI hV
      refine ⟨h1, h2, h3.trans ?_⟩
      rw [baseMark, if_pos hor]
      exact Nat.mul_le_mul_left _ (Nat.sub_le _ _)
    · have hT' : seq V T := by
        have : (if par = true then Triangulate (params hash depth cutoff true seq .cycle big tiny pts cs) len V T else seq V T) := hT
        rwa [if_neg hp] at this
      obtain ⟨h1, h2, h3⟩ := hb V T hI hV hT'
      exact ⟨h1, h2, by omega⟩
  · have := hq.levels
    rw [baseMark]
    split
    · have := (hq.par ‹_›).2
      omega
    · omega

/-- **C80.** If the tree of the partitioner splits the points into separated parts and its checkers are sound, and the
sequential base triangulator returns Delaunay triangulations (breaking ties by some fixed rule), the load-balanced
triangulator returns a Delaunay triangulation of all points, whatever the interleavings of its parallel loops. -/
theorem C80_delaunay (hs : Scene D pts S) (ht : Tie pts h S) (hg : GoodTree pts S t)
    (hH : ∀ p s, sub t p = some s → p.length ≤ H)
    (hq : LBSettingOk depth cutoff parBase parEdge big tiny pts cs S H) (hb : BaseOk pts h seq S)
    (hT : LBTri (lbParams hash depth cutoff parBase parEdge seq big tiny pts cs) 1 t T) : Delaunay D pts S T := by
  have hlf := hT.leafy
  have hcol := splits_collect hg.splits hg.within hs.ids hlf
  obtain ⟨hB, hm⟩ := hq.base (hash := hash) hs ht hb
  have := (lb_correct _ hq.dim (hs.world ht) hB 1 t T hT H hH hm le_rfl (by rw [hcol]; exact hs.inf)
    hg.within (hg.treeOk _ hs ht hq.circ hlf)).1
  rw [hcol] at this
  exact this.delaunay hs ht

/-- **C80 (the recursion never gets stuck).** If the root has a checker, no inner node is without children, and only children
are leaves, then there is a result, provided that the sequential base triangulator has one. -/
theorem C80_returns (hs : Scene D pts S) (ht : Tie pts h S) (hg : GoodTree pts S t)
    (hH : ∀ p s, sub t p = some s → p.length ≤ H)
    (hq : LBSettingOk depth cutoff parBase parEdge big tiny pts cs S H) (hb : BaseOk pts h seq S)
    (hfresh : ∀ V (used : Finset Nat), infPts D ⊆ V → V ⊆ S → ∃ T, seq V T ∧ Disjoint T.range used)
    (hroot : t.chk ≠ none) (hsh : Shape t) :
    ∃ T, LBTri (lbParams hash depth cutoff parBase parEdge seq big tiny pts cs) 1 t T := by
  have hlf := Shape.leafy H hH hsh
  have hcol := splits_collect hg.splits hg.within hs.ids hlf
  obtain ⟨hB, hm⟩ := hq.base (hash := hash) hs ht hb
  obtain ⟨T, hT, _⟩ := lb_exists _ hq.dim (hs.world ht) hB (by
      intro par len V used hpar hlen hI hV
      by_cases hp : par = true
      · have hor : parBase = true ∨ parEdge = true := by
          rcases hpar with rfl | rfl
          · exact Or.inl hp
          · exact Or.inr hp
        have hst := (hq.par hor).1
        obtain ⟨T, h1, h2⟩ := triangulate_exists (params hash depth cutoff true seq .cycle big tiny pts cs) hq.dim
          (hs.world ht) (hst.params hs ht hb) hfresh
          (fun len S _ hS hc => by
            obtain ⟨h1, h2, h3⟩ := hst.parts hs hS hc len
            exact Part.Splitter.Parts.exists hst.dim h1 h2 h3)
          _ len V used rfl hlen hI hV
        exact ⟨T, by show (if par = true then _ else _); rw [if_pos hp]; exact h1, h2⟩
      · obtain ⟨T, h1, h2⟩ := hfresh V used hI hV
        exact ⟨T, by show (if par = true then _ else _); rw [if_neg hp]; exact h1, h2⟩)
    H 1 t ∅ hH hm le_rfl (by rw [hcol]; exact hs.inf) hg.within (hg.treeOk _ hs ht hq.circ hlf)
    (hg.covered.checked hroot) hsh
  exact ⟨T, hT⟩

omit [IsStrictOrderedRing K] in
/-- **C80 (null pointer).** Without a checker at the root there is no result. -/
theorem C80_null (A : LBParams D K) (len : Nat) (hroot : t.chk = none) : ¬ ∃ T, LBTri A len t T := by
  rintro ⟨T, hT⟩
  cases hT <;> simp [PTree.chk] at hroot

end
end DC
end Verif
