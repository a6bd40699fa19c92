import Verif.Props.CrossCheck
import Verif.Props.Delaunay
import Verif.Lemmas.LocalDelaunay

/-!
# C57: verification of triangulations
-/
namespace Verif
namespace DC
open Del Euc

/-- All ids of a container: the finite ones and the infinite ones. -/
def PtsBox.all (D : Nat) (P : PtsBox) : Finset Nat :=
  ((Finset.Ioo P.offset (P.offset + P.fsize)).filter fun i => i < 2 ^ 64 - 2 ^ D) ∪
    Finset.Ico (2 ^ 64 - 2 ^ D) (2 ^ 64)

/-- Assumptions: the triangulation is stored properly, and all ids that are looked up exist. -/
structure VerifyPre (D : Nat) (P : PtsBox) (ids : Option (Finset Nat)) (T : Tri) : Prop where
  stored : T.Stored (D + 1)
  sorted : ∀ i, T.contains i = true → (T.vs i).Pairwise (· < ·)
  hull : ∀ i ∈ T.hull, i ∈ T.range
  range : ∀ i, T.contains i = true → ∀ v ∈ T.vs i, v < 2 ^ 64
  points : ∀ i, T.contains i = true → ∀ m ∈ T.ns i, m ≠ sINF → ∀ p ∈ T.vs m, P.readable D p = true
  size : 0 < P.fsize ∧ P.offset + P.fsize ≤ 2 ^ 64 - 2 ^ D
  given : ∀ s, ids = some s → ∀ i ∈ s, P.readable D i = true
  noIds : ids = none → P.offset = 0

/-- The points used by the valid simplices. -/
def Used (T : Tri) (v : Nat) : Prop := ∃ i, T.contains i = true ∧ v ∈ T.vs i

section
variable {D : Nat} {hash : Nat → BitVec 32} {inSph : List Nat → Nat → Bool} {P : PtsBox}
  {ids : Option (Finset Nat)} {T : Tri} {l : List Nat}

theorem mem_usedPts (hl : T.Lists l) {v : Nat} : v ∈ usedPts T l ↔ Used T v := by
  simp [usedPts, Used, hl.2]

theorem card_all (hD : D ≤ 64) (h1 : 0 < P.fsize) (h2 : P.offset + P.fsize ≤ 2 ^ 64 - 2 ^ D) :
    (P.all D).card = P.fsize + 2 ^ D - 1 := by
  have hp : 2 ^ D ≤ 2 ^ 64 := Nat.pow_le_pow_right (by omega) hD
  rw [PtsBox.all, Finset.card_union_of_disjoint, Nat.card_Ico, Finset.filter_true_of_mem, Nat.card_Ioo]
  · have := Nat.two_pow_pos D
    generalize 2 ^ D = x at *
    omega
  · intro i hi
    rw [Finset.mem_Ioo] at hi
    omega
  · rw [Finset.disjoint_left]
    intro i hi
    rw [Finset.mem_filter] at hi
    rw [Finset.mem_Ico]
    omega

theorem contains_iff_all (h2 : P.offset + P.fsize ≤ 2 ^ 64 - 2 ^ D) {i : Nat} (hi : i < 2 ^ 64) :
    P.contains D i = true ↔ i ∈ P.all D := by
  unfold PtsBox.contains PtsBox.all
  rw [Finset.mem_union, Finset.mem_filter, Finset.mem_Ioo, Finset.mem_Ico]
  split_ifs with h
  · rw [Part.isFinite_iff'] at h
    simp only [Bool.and_eq_true, decide_eq_true_eq]
    omega
  · rw [Part.isFinite_iff'] at h
    simp only [true_iff]
    omega

/-- The container equals the set of used points iff they have the same elements. -/
theorem eqUsed_iff (hD : D ≤ 64) (h1 : 0 < P.fsize) (h2 : P.offset + P.fsize ≤ 2 ^ 64 - 2 ^ D) {used : Finset Nat}
    (hu : ∀ v ∈ used, v < 2 ^ 64) : P.eqUsed D used = true ↔ used = P.all D := by
  unfold PtsBox.eqUsed
  rw [Bool.and_eq_true, decide_eq_true_eq, decide_eq_true_eq, ← card_all hD h1 h2]
  constructor
  · rintro ⟨h3, h4⟩
    exact Finset.eq_of_subset_of_card_le (fun v hv => (contains_iff_all h2 (hu v hv)).mp (h4 v hv)) h3.le
  · rintro rfl
    exact ⟨rfl, fun v hv => (contains_iff_all h2 (hu v hv)).mpr hv⟩

/-- Result of the check of the points. -/
theorem pointsCheck_spec (hD : D ≤ 64) (hp : VerifyPre D P ids T) {used : Finset Nat}
    (hu : ∀ v ∈ used, v < 2 ^ 64) :
    ∃ b, pointsCheck D P ids used = some b ∧ (b = true ↔
      used = P.all D ∨ ∃ s, ids = some s ∧ ∀ v, v < 2 ^ 64 - 2 ^ D → (v ∈ used ↔ v ∈ s)) := by
  have he := eqUsed_iff hD hp.size.1 hp.size.2 hu
  unfold pointsCheck
  by_cases h : P.eqUsed D used = true
  · rw [if_pos h]
    exact ⟨true, rfl, by simp [he.mp h]⟩
  · rw [if_neg h]
    have hne : used ≠ P.all D := fun h' => h (he.mpr h')
    cases ids with
    | some s =>
      simp only
      rw [if_pos (hp.given s rfl)]
      refine ⟨_, rfl, ?_⟩
      simp only [Bool.and_eq_true, decide_eq_true_eq, hne, false_or, Option.some.injEq, exists_eq_left',
        ← Bool.not_eq_true, Part.isFinite_iff', not_lt]
      constructor
      · rintro ⟨h3, h4⟩ v hv
        exact ⟨fun hm => h4 v hm hv, fun hm => (h3 v hm).resolve_right (by omega)⟩
      · intro h3
        refine ⟨fun i hi => ?_, fun p hp' hf => (h3 p hf).mp hp'⟩
        by_cases hf : i < 2 ^ 64 - 2 ^ D
        · exact Or.inl ((h3 i hf).mpr hi)
        · exact Or.inr (not_lt.mp hf)
    | none =>
      have h0 := hp.noIds rfl
      simp only
      rw [if_pos]
      · refine ⟨_, rfl, ?_⟩
        simp only [hne, Bool.and_eq_true, decide_eq_true_eq, false_or, reduceCtorEq, false_and, exists_false,
          iff_false, not_and]
        intro h3 h4
        have h5 := h3 0 (Finset.mem_range.mpr hp.size.1)
        have hf : Part.isFinite D 0 = true := Part.isFinite_iff'.mpr (by have := hp.size; omega)
        rw [hf] at h5
        simp only [Bool.true_eq_false, or_false] at h5
        have h6 := h4 0 h5 hf
        rw [PtsBox.contains, if_pos hf, h0] at h6
        simp at h6
      · intro i hi
        rw [Finset.mem_range] at hi
        unfold PtsBox.readable
        split_ifs
        · rw [h0]; simpa using hi
        · rfl

/-- The neighbour relation between `a` and `b` is correct. -/
def NbOk (D : Nat) (T : Tri) (a b : Nat) : Prop :=
  (((T.vs a).toFinset ∩ (T.vs b).toFinset).card = D → b ∈ T.ns a ∧ a ∈ T.ns b) ∧
  (((T.vs a).toFinset ∩ (T.vs b).toFinset).card ≠ D → b ∉ T.ns a ∧ a ∉ T.ns b)

/-- What `verify` checks. -/
structure Checks (D : Nat) (hash : Nat → BitVec 32) (inSph : List Nat → Nat → Bool) (P : PtsBox)
    (ids : Option (Finset Nat)) (T : Tri) : Prop where
  /-- the points of the container, or the given points, are used -/
  points : (∀ v, Used T v ↔ v ∈ P.all D) ∨
    ∃ s, ids = some s ∧ ∀ v, v < 2 ^ 64 - 2 ^ D → (Used T v ↔ v ∈ s)
  /-- the hull list contains all simplices with an infinite vertex -/
  hullAll : ∀ i, T.contains i = true → (∃ v ∈ T.vs i, 2 ^ 64 - 2 ^ D ≤ v) → i ∈ T.hull
  /-- it contains no other simplices -/
  hullOnly : ∀ i ∈ T.hull, ∃ v ∈ T.vs i, 2 ^ 64 - 2 ^ D ≤ v
  /-- no simplex is stored twice -/
  once : ∀ a b, T.contains a = true → T.contains b = true → T.vs a = T.vs b → a = b
  /-- neighbour relations between simplices with a face of the same hash -/
  nbs : ∀ a b, T.contains a = true → T.contains b = true →
    (∃ d ≤ D, ∃ d' ≤ D, faceKey hash (T.vs a) d = faceKey hash (T.vs b) d') → NbOk D T a b
  /-- finite vertices of neighbours are outside of the circumsphere -/
  circ : ∀ a, T.contains a = true → ∀ m ∈ T.ns a, m ≠ sINF → ∀ p ∈ T.vs m, p < 2 ^ 64 - 2 ^ D → p ∉ T.vs a →
    inSph (T.vs a) p = false

theorem vsFinite_false {vs : List Nat} : vsFinite D vs = false ↔ ∃ v ∈ vs, 2 ^ 64 - 2 ^ D ≤ v := by
  rw [vsFinite, ← Bool.not_eq_true, List.all_eq_true]
  simp only [Part.isFinite_iff', not_forall, not_lt, exists_prop]

theorem isNb_iff {a b : List Nat} (ha : a.Pairwise (· < ·)) (hb : b.Pairwise (· < ·)) :
    isNb D a b = true ↔ (a.toFinset ∩ b.toFinset).card = D := by
  rw [isNb, beq_iff_eq, Simplex.shared_eq a b ha hb]

theorem wrongPair_iff (hp : VerifyPre D P ids T) {a b : Nat} (ha : T.contains a = true)
    (hb : T.contains b = true) : wrongPair D T a b = false ↔ NbOk D T a b := by
  have e1 := isNb_iff (D := D) (hp.sorted a ha) (hp.sorted b hb)
  have e2 := isNb_iff (D := D) (hp.sorted b hb) (hp.sorted a ha)
  rw [Finset.inter_comm, ← e1] at e2
  have e3 : isNb D (T.vs b) (T.vs a) = isNb D (T.vs a) (T.vs b) := Bool.eq_iff_iff.mpr e2
  unfold wrongPair NbOk
  rw [← e1, hp.stored.id a ha, hp.stored.id b hb, e3]
  rw [Ne, ← e1]
  cases isNb D (T.vs a) (T.vs b) <;> simp

theorem flatMap_eq_nil {α β : Type} {l : List α} {f : α → List β} : (l.flatMap f).isEmpty = true ↔
    ∀ a ∈ l, f a = [] := by
  rw [List.isEmpty_iff, List.flatMap_eq_nil_iff]

/-- **C57 (exact checks).** `verify` accesses only existing elements and reports validity iff the conditions
`Checks` hold; the order of the iteration has no influence. -/
theorem C57_checks (hD : D ≤ 64) (hl : T.Lists l) (hp : VerifyPre D P ids T) :
    ∃ rep, verify D hash inSph P ids T l = some rep ∧
      (rep.valid = true ↔ Checks D hash inSph P ids T) := by
  have hst := hp.stored
  obtain ⟨b, h1, h2⟩ := pointsCheck_spec hD hp (used := usedPts T l) (by
    intro v hv
    obtain ⟨i, hi, hm⟩ := (mem_usedPts hl).mp hv
    exact hp.range i hi v hm)
  have h3 : hullWrong D T = some (T.hull.filter fun i => vsFinite D (T.vs i)) := by
    unfold hullWrong
    rw [if_pos]
    rw [List.all_eq_true]
    exact fun i hi => decide_eq_true (hp.hull i hi)
  have h4 : ∃ d, dupPairs hash T l = some d ∧ (d.isEmpty = true ↔
      ∀ a b, T.contains a = true → T.contains b = true → T.vs a = T.vs b → a = b) := by
    unfold dupPairs
    simp only
    rw [if_pos]
    · refine ⟨_, rfl, ?_⟩
      rw [flatMap_eq_nil]
      simp only [List.map_eq_nil_iff, List.filter_eq_nil_iff, mem_eqRange, lookupOf, List.mem_map, Prod.mk.injEq]
      constructor
      · intro h a b ha hb he
        have := h a ((hl.2 a).mpr ha) b ⟨b, (hl.2 b).mpr hb, by rw [he], hst.id b hb⟩
        rw [(equalVs_iff (by rw [he])).mpr he, hst.id a ha, hst.id b hb] at this
        simpa using this
      · rintro h a ha b ⟨k, hk, _, he⟩
        have hk' := (hl.2 k).mp hk
        have ha' := (hl.2 a).mp ha
        rw [hst.id k hk'] at he
        subst he
        rw [hst.id a ha', hst.id k hk']
        by_cases hv : T.vs a = T.vs k
        · rw [h a k ha' hk' hv]
          simp [(equalVs_iff (hash := hash) (a := T.vs k) (b := T.vs k) rfl).mpr rfl]
        · have e1 : equalVs hash (T.vs a) (T.vs k) = false := by
            rw [← Bool.not_eq_true, equalVs_iff (by rw [hst.len a ha', hst.len k hk'])]
            exact hv
          have e2 : a ≠ k := fun h => hv (by rw [h])
          simp [e1, e2]
    · rw [List.all_eq_true]
      intro p hp'
      obtain ⟨a, ha, rfl⟩ := List.mem_map.mp hp'
      have ha' := (hl.2 a).mp ha
      rw [decide_eq_true_eq, hst.id a ha']
      exact (Tri.contains_iff.mp ha').1
  have h5 : ∃ d, wrongNbs D hash T l = some d ∧ (d.isEmpty = true ↔
      ∀ a b, T.contains a = true → T.contains b = true →
        (∃ d ≤ D, ∃ d' ≤ D, faceKey hash (T.vs a) d = faceKey hash (T.vs b) d') → NbOk D T a b) := by
    unfold wrongNbs
    simp only
    rw [if_pos]
    · refine ⟨_, rfl, ?_⟩
      rw [flatMap_eq_nil]
      simp only [List.flatMap_eq_nil_iff, List.map_eq_nil_iff, List.filter_eq_nil_iff, mem_eqRange, faceLookup,
        List.mem_flatMap, List.mem_map, Prod.mk.injEq, List.mem_range, Bool.not_eq_true]
      constructor
      · rintro h a b ha hb ⟨d, hd, d', hd', he⟩
        rw [← wrongPair_iff hp ha hb]
        exact h a ((hl.2 a).mpr ha) d (by omega) b ⟨b, (hl.2 b).mpr hb, d', by omega, he.symm, hst.id b hb⟩
      · rintro h a ha d hd b ⟨k, hk, d', hd', he, hid⟩
        have hk' := (hl.2 k).mp hk
        have ha' := (hl.2 a).mp ha
        rw [hst.id k hk'] at hid
        subst hid
        rw [wrongPair_iff hp ha' hk']
        exact h a k ha' hk' ⟨d, by omega, d', by omega, he.symm⟩
    · rw [List.all_eq_true]
      intro p hp'
      obtain ⟨a, ha, h'⟩ := List.mem_flatMap.mp hp'
      obtain ⟨d, _, rfl⟩ := List.mem_map.mp h'
      have ha' := (hl.2 a).mp ha
      rw [decide_eq_true_eq, hst.id a ha']
      exact (Tri.contains_iff.mp ha').1
  have h6 : ∃ d, inCircle D inSph P T l = some d ∧ (d.isEmpty = true ↔
      ∀ a, T.contains a = true → ∀ m ∈ T.ns a, m ≠ sINF → ∀ p ∈ T.vs m, p < 2 ^ 64 - 2 ^ D → p ∉ T.vs a →
        inSph (T.vs a) p = false) := by
    have hcv : ∀ a, T.contains a = true → ∀ p, Simplex.containsVs p (T.vs a) = true ↔ p ∈ T.vs a := by
      intro a ha p
      exact Simplex.C31_contains ⟨0, T.vs a, [], 0#32, 0⟩ p ((hp.sorted a ha).imp fun h => Nat.le_of_lt h)
    unfold inCircle
    rw [if_pos]
    · refine ⟨_, rfl, ?_⟩
      rw [flatMap_eq_nil]
      simp only [List.flatMap_eq_nil_iff, List.map_eq_nil_iff, List.filter_eq_nil_iff, finNs, testPts,
        List.mem_filter, decide_eq_true_eq, Bool.and_eq_true, Part.isFinite_iff', Bool.not_eq_true',
        Bool.not_eq_true]
      constructor
      · intro h a ha m hm hf p hp' hpf hpa
        refine h a ((hl.2 a).mpr ha) m ⟨hm, hf⟩ p ⟨hp', hpf, ?_⟩
        rw [← Bool.not_eq_true, hcv a ha]
        exact hpa
      · rintro h a ha m ⟨hm, hf⟩ p ⟨hp', hpf, hpa⟩
        have ha' := (hl.2 a).mp ha
        rw [← Bool.not_eq_true, hcv a ha'] at hpa
        exact h a ha' m hm hf p hp' hpf hpa
    · rw [List.all_eq_true]
      intro a ha
      rw [List.all_eq_true]
      intro m hm
      simp only [finNs, List.mem_filter, decide_eq_true_eq] at hm
      have ha' := (hl.2 a).mp ha
      rw [Bool.and_eq_true, decide_eq_true_eq, List.all_eq_true]
      refine ⟨(hst.ns a ha' m hm.1 hm.2).1, fun p hp' => ?_⟩
      exact hp.points a ha' m hm.1 hm.2 p (List.mem_filter.mp hp').1
  obtain ⟨d4, e4, h4⟩ := h4
  obtain ⟨d5, e5, h5⟩ := h5
  obtain ⟨d6, e6, h6⟩ := h6
  refine ⟨_, by rw [verify, h1, h3, e4, e5, e6], ?_⟩
  simp only [Bool.and_eq_true, h2, h4, h5, h6]
  have k1 : (usedPts T l = P.all D ∨ ∃ s, ids = some s ∧ ∀ v, v < 2 ^ 64 - 2 ^ D → (v ∈ usedPts T l ↔ v ∈ s)) ↔
      ((∀ v, Used T v ↔ v ∈ P.all D) ∨ ∃ s, ids = some s ∧ ∀ v, v < 2 ^ 64 - 2 ^ D → (Used T v ↔ v ∈ s)) := by
    simp only [mem_usedPts hl, Finset.ext_iff]
  have k2 : (hullMissing D T l).isEmpty = true ↔
      ∀ i, T.contains i = true → (∃ v ∈ T.vs i, 2 ^ 64 - 2 ^ D ≤ v) → i ∈ T.hull := by
    unfold hullMissing
    rw [List.isEmpty_iff, List.filter_eq_nil_iff]
    constructor
    · intro h i hi hv
      have := h i ((hl.2 i).mpr hi)
      rw [vsFinite_false.mpr hv, hst.id i hi] at this
      simpa using this
    · intro h i hi
      have hi' := (hl.2 i).mp hi
      rw [hst.id i hi']
      by_cases hv : vsFinite D (T.vs i) = true
      · simp [hv]
      · have := h i hi' (vsFinite_false.mp (Bool.not_eq_true _ ▸ hv))
        simp [this]
  have k3 : (T.hull.filter fun i => vsFinite D (T.vs i)).isEmpty = true ↔
      ∀ i ∈ T.hull, ∃ v ∈ T.vs i, 2 ^ 64 - 2 ^ D ≤ v := by
    rw [List.isEmpty_iff, List.filter_eq_nil_iff]
    simp only [Bool.not_eq_true, vsFinite_false]
  rw [k1, k2, k3]
  constructor
  · rintro ⟨⟨⟨⟨⟨a, b⟩, c⟩, d⟩, e⟩, f⟩
    exact ⟨a, b, c, d, e, f⟩
  · rintro ⟨a, b, c, d, e, f⟩
    exact ⟨⟨⟨⟨⟨a, b⟩, c⟩, d⟩, e⟩, f⟩

end

/-! ### Soundness and acceptance -/

theorem across_of_card {D : Nat} {t t' : Finset Nat} (ht : t.card = D + 1) (ht' : t'.card = D + 1)
    (hc : (t ∩ t').card = D) : ∃ v, Across t v t' := by
  have h1 : (t \ t').card = 1 := by rw [Finset.card_sdiff, Finset.inter_comm]; omega
  have h2 : (t' \ t).card = 1 := by rw [Finset.card_sdiff]; omega
  obtain ⟨v, hv⟩ := Finset.card_eq_one.mp h1
  obtain ⟨u, hu⟩ := Finset.card_eq_one.mp h2
  have hv' : v ∈ t \ t' := by rw [hv]; simp
  have hu' : u ∈ t' \ t := by rw [hu]; simp
  obtain ⟨v1, v2⟩ := Finset.mem_sdiff.mp hv'
  obtain ⟨u1, u2⟩ := Finset.mem_sdiff.mp hu'
  refine ⟨v, v1, u, u2, ?_⟩
  ext k
  rw [Finset.mem_insert, Finset.mem_erase]
  constructor
  · intro hk
    by_cases hkt : k ∈ t
    · exact Or.inr ⟨fun h => v2 (h ▸ hk), hkt⟩
    · have : k ∈ t' \ t := Finset.mem_sdiff.mpr ⟨hk, hkt⟩
      rw [hu, Finset.mem_singleton] at this
      exact Or.inl this
  · rintro (rfl | ⟨h3, h4⟩)
    · exact u1
    · by_contra hk
      have : k ∈ t \ t' := Finset.mem_sdiff.mpr ⟨h4, hk⟩
      rw [hv, Finset.mem_singleton] at this
      exact h3 this

theorem card_of_across {t t' : Finset Nat} {v : Nat} (ha : Across t v t') : (t ∩ t').card + 1 = t.card := by
  obtain ⟨hv, u, hu, rfl⟩ := ha
  have : t ∩ insert u (t.erase v) = t.erase v := by
    ext k
    rw [Finset.mem_inter, Finset.mem_insert]
    constructor
    · rintro ⟨h1, rfl | h2⟩
      · exact absurd h1 hu
      · exact h2
    · intro h; exact ⟨Finset.mem_of_mem_erase h, Or.inr h⟩
  rw [this, Finset.card_erase_of_mem hv]
  have := Finset.card_pos.mpr ⟨v, hv⟩
  omega

/-- Two simplices with a common facet have a face with the same hash. -/
theorem faceKey_common (hash : Nat → BitVec 32) {D : Nat} {a b : List Nat} (ha : a.Nodup) (hb : b.Nodup)
    (la : a.length = D + 1) (lb : b.length = D + 1) {v : Nat} (hx : Across a.toFinset v b.toFinset) :
    ∃ d ≤ D, ∃ d' ≤ D, faceKey hash a d = faceKey hash b d' := by
  obtain ⟨d, hd, e⟩ := mem_getD (List.mem_toFinset.mp hx.1)
  obtain ⟨d', hd', e'⟩ := faceKey_across hash ha hb hd (by rw [e]; exact hx)
  exact ⟨d, by omega, d', by omega, e'.symm⟩

section
variable {K : Type} [Field K] [LinearOrder K] [IsStrictOrderedRing K]

/-- `inSph` decides membership in the closed ball of the circumsphere. -/
def InSphereOk {D : Nat} (pts : Nat → Vec D K) (inSph : List Nat → Nat → Bool) : Prop :=
  ∀ vs : List Nat, vs.Nodup → Simp pts vs.toFinset → ∀ c ρ, (∀ v ∈ vs, dist2 (pts v) c = ρ) → ∀ p,
    inSph vs p = true ↔ dist2 (pts p) c ≤ ρ

/-- The circumsphere is unique. -/
theorem ball_unique {D : Nat} {pts : Nat → Vec D K} {t : Finset Nat} (hs : Simp pts t) {c c' : Vec D K} {ρ ρ' : K}
    (h : ∀ v ∈ t, dist2 (pts v) c = ρ) (h' : ∀ v ∈ t, dist2 (pts v) c' = ρ') (q : Vec D K) :
    dist2 q c - ρ = dist2 q c' - ρ' := by
  have := Interp.unique (isSimp_iff.mpr hs) (interp_ball.mpr h) (interp_ball.mpr h')
  have e := congrArg (fun f : K × Vec D K →ₗ[K] K => f (hom q)) this
  simp only [ball_hom] at e
  linarith

/-- The test of the code in two dimensions (C38). -/
theorem inSphereOk2 (pts : Nat → Vec 2 K) : InSphereOk pts (inSph2 pts) := by
  intro vs hnd hs c ρ hc p
  obtain ⟨hl, _⟩ := Simp.indep hnd hs
  match vs, hl with
  | [x, y, z], _ =>
    have ho := Geom.orient2_ne (Simp.nonDeg2 hnd hs)
    let c0 := (Geom.circumsphere2 id (pts x) (pts y) (pts z)).center
    have hp := fun q : Vec 2 K => Geom.power2 id q ho
    have e1 : Geom.insphereDet2 (pts x) (pts y) (pts z) (pts y) = 0 := by simp only [Geom.insphereDet2]; ring
    have e2 : Geom.insphereDet2 (pts x) (pts y) (pts z) (pts z) = 0 := by simp only [Geom.insphereDet2]; ring
    have hc0 : ∀ v ∈ ([x, y, z] : List Nat).toFinset, dist2 (pts v) c0 = Geom.sqDist (pts x) c0 := by
      intro v hv
      rw [dist2_eq_sqDist]
      simp only [List.toFinset_cons, List.toFinset_nil, Finset.mem_insert, Finset.notMem_empty, or_false] at hv
      rcases hv with rfl | rfl | rfl
      · rfl
      · rw [hp, e1]; simp [c0]
      · rw [hp, e2]; simp [c0]
    have hb := ball_unique hs (fun v hv => hc v (List.mem_toFinset.mp hv)) hc0 (pts p)
    have hsg := Geom.sign_iff ho (hp (pts p))
    rw [inSph2, Geom.inSphere2, decide_eq_true_eq]
    simp only [List.getD_cons_zero, List.getD_cons_succ]
    rw [hsg, ← dist2_eq_sqDist]
    constructor
    · intro h
      have : dist2 (pts p) c0 ≤ Geom.sqDist (pts x) c0 := h
      linarith
    · intro h
      have : dist2 (pts p) c0 ≤ Geom.sqDist (pts x) c0 := by linarith
      exact this

/-- The test of the code in three dimensions (C38). -/
theorem inSphereOk3 (pts : Nat → Vec 3 K) : InSphereOk pts (inSph3 pts) := by
  intro vs hnd hs c ρ hc p
  obtain ⟨hl, _⟩ := Simp.indep hnd hs
  match vs, hl with
  | [x, y, z, w], _ =>
    have ho := Geom.orient3_ne (Simp.nonDeg3 hnd hs)
    let c0 := (Geom.circumsphere3 id (pts x) (pts y) (pts z) (pts w)).center
    have hp := fun q : Vec 3 K => Geom.power3 id q ho
    have e1 : Geom.insphereDet3 (pts x) (pts y) (pts z) (pts w) (pts y) = 0 := by
      simp only [Geom.insphereDet3]; ring
    have e2 : Geom.insphereDet3 (pts x) (pts y) (pts z) (pts w) (pts z) = 0 := by
      simp only [Geom.insphereDet3]; ring
    have e3 : Geom.insphereDet3 (pts x) (pts y) (pts z) (pts w) (pts w) = 0 := by
      simp only [Geom.insphereDet3]; ring
    have hc0 : ∀ v ∈ ([x, y, z, w] : List Nat).toFinset, dist2 (pts v) c0 = Geom.sqDist (pts x) c0 := by
      intro v hv
      rw [dist2_eq_sqDist]
      simp only [List.toFinset_cons, List.toFinset_nil, Finset.mem_insert, Finset.notMem_empty, or_false] at hv
      rcases hv with rfl | rfl | rfl | rfl
      · rfl
      · rw [hp, e1]; simp [c0]
      · rw [hp, e2]; simp [c0]
      · rw [hp, e3]; simp [c0]
    have hb := ball_unique hs (fun v hv => hc v (List.mem_toFinset.mp hv)) hc0 (pts p)
    have hsg := Geom.sign_iff ho (hp (pts p))
    rw [inSph3, Geom.inSphere3, decide_eq_true_eq]
    simp only [List.getD_cons_zero, List.getD_cons_succ]
    rw [hsg, ← dist2_eq_sqDist]
    constructor
    · intro h
      have : dist2 (pts p) c0 ≤ Geom.sqDist (pts x) c0 := h
      linarith
    · intro h
      have : dist2 (pts p) c0 ≤ Geom.sqDist (pts x) c0 := by linarith
      exact this

variable {D : Nat} {hash : Nat → BitVec 32} {inSph : List Nat → Nat → Bool} {P : PtsBox}
  {ids : Option (Finset Nat)} {T : Tri} {l : List Nat} {pts : Nat → Vec D K} {S : Finset Nat}

/-- Convex hulls and cones. -/
theorem inCone_hom {A : Finset Nat} {w : K × Vec D K} (hc : InCone (K := K) (fun i => hom (pts i)) A w) :
    0 ≤ w.1 ∧ (w.1 = 0 → w = 0) ∧ (0 < w.1 → ∃ q, w = w.1 • hom q ∧ q ∈ convexHull K (pts '' (A : Set Nat))) := by
  obtain ⟨ν, hν, rfl⟩ := hc
  have h1 : (∑ i ∈ A, ν i • hom (pts i)).1 = ∑ i ∈ A, ν i := by
    simp [hom, Prod.fst_sum]
  refine ⟨by rw [h1]; exact Finset.sum_nonneg hν, fun h0 => ?_, fun hp => ?_⟩
  · rw [h1] at h0
    have := (Finset.sum_eq_zero_iff_of_nonneg hν).mp h0
    exact Finset.sum_eq_zero fun i hi => by rw [this i hi, zero_smul]
  · rw [h1] at hp ⊢
    refine ⟨∑ i ∈ A, (ν i / ∑ j ∈ A, ν j) • pts i, ?_, ?_⟩
    · apply Prod.ext
      · rw [h1]; simp [hom]
      · simp only [hom, Prod.snd_sum, Prod.smul_snd, Finset.smul_sum, smul_smul]
        refine Finset.sum_congr rfl fun i _ => ?_
        rw [mul_div_cancel₀ _ hp.ne']
    · refine (convex_convexHull K _).sum_mem (fun i hi => div_nonneg (hν i hi) hp.le) ?_
        (fun i hi => subset_convexHull K _ ⟨i, hi, rfl⟩)
      rw [← Finset.sum_div, div_self hp.ne']

theorem InCone.smul_hom {A : Finset Nat} {q : Vec D K} {k : K} (hk : 0 ≤ k)
    (hq : q ∈ convexHull K (pts '' (A : Set Nat))) :
    InCone (K := K) (fun i => hom (pts i)) A (k • hom q) := by
  obtain ⟨ν, h1, h2⟩ := inCone_iff.mpr hq
  refine ⟨fun i => k * ν i, fun i hi => mul_nonneg hk (h1 i hi), ?_⟩
  rw [h2, Finset.smul_sum]
  exact Finset.sum_congr rfl fun i _ => by rw [smul_smul]

theorem InCone.zero {ι W : Type*} [DecidableEq ι] [AddCommGroup W] [Module K W] {x : ι → W} {A : Finset ι} :
    InCone (K := K) x A 0 := ⟨fun _ => 0, fun _ _ => le_rfl, by simp⟩

/-- Triangulations in terms of convex hulls. -/
theorem isTriang_of {F : Set (Finset Nat)} (hne : F.Nonempty) (hs : ∀ t ∈ F, t ⊆ S ∧ Simp pts t)
    (hc : ∀ q ∈ convexHull K (pts '' (S : Set Nat)), ∃ t ∈ F, q ∈ convexHull K (pts '' (t : Set Nat)))
    (hp : ∀ t ∈ F, ∀ u ∈ F, convexHull K (pts '' (t : Set Nat)) ∩ convexHull K (pts '' (u : Set Nat)) ⊆
      convexHull K (pts '' ((t ∩ u : Finset Nat) : Set Nat)))
    (hu : ∀ p ∈ S, ∃ t ∈ F, p ∈ t) : IsTriang (K := K) (fun i => hom (pts i)) S F where
  simp := fun t ht => ⟨(hs t ht).1, isSimp_iff.mpr (hs t ht).2⟩
  cover := by
    intro w hw
    obtain ⟨h1, h2, h3⟩ := inCone_hom hw
    rcases h1.lt_or_eq with h | h
    · obtain ⟨q, e, hq⟩ := h3 h
      obtain ⟨t, ht, hqt⟩ := hc q hq
      refine ⟨t, ht, ?_⟩
      rw [e]
      exact InCone.smul_hom h1 hqt
    · obtain ⟨t, ht⟩ := hne
      refine ⟨t, ht, ?_⟩
      rw [h2 h.symm]
      exact InCone.zero
  proper := by
    intro t ht u hu' w h1 h2
    obtain ⟨a1, a2, a3⟩ := inCone_hom h1
    obtain ⟨_, _, b3⟩ := inCone_hom h2
    rcases a1.lt_or_eq with h | h
    · obtain ⟨q, e, hq⟩ := a3 h
      obtain ⟨q', e', hq'⟩ := b3 h
      have : q = q' := by
        have := e.symm.trans e'
        have := congrArg Prod.snd this
        simp only [hom, Prod.smul_snd] at this
        exact smul_right_injective _ h.ne' this
      subst this
      rw [e]
      exact InCone.smul_hom a1 (hp t ht u hu' ⟨hq, hq'⟩)
    · rw [a2 h.symm]
      exact InCone.zero
  used := hu

/-- **C57 (soundness, partial).** If `verify` accepts, all points are used, the hull list is exact, no simplex is
stored twice and simplices with a common facet are neighbours of each other. If moreover the simplices cover the
convex hull of the used points and meet in common faces (which is not checked) and the condition holds for facets
between two infinite vertices (which is not checked, `C57_infinite_violated`), then every other point is strictly
outside of every circumsphere. -/
theorem C57_sound_partial (hD : D ≤ 64) (hl : T.Lists l) (hp : VerifyPre D P ids T) (hin : InSphereOk pts inSph)
    (hS : ∀ v, v ∈ S ↔ Used T v) {rep : VerifyReport} (hv : verify D hash inSph P ids T l = some rep)
    (hval : rep.valid = true) :
    ((∀ v, v ∈ S ↔ v ∈ P.all D) ∨ ∃ s, ids = some s ∧ ∀ v, v < 2 ^ 64 - 2 ^ D → (v ∈ S ↔ v ∈ s)) ∧
    (∀ i, T.contains i = true → (i ∈ T.hull ↔ ∃ v ∈ T.vs i, 2 ^ 64 - 2 ^ D ≤ v)) ∧
    (∀ a b, T.contains a = true → T.contains b = true → (T.vs a).toFinset = (T.vs b).toFinset → a = b) ∧
    (∀ a b, T.contains a = true → T.contains b = true → ((T.vs a).toFinset ∩ (T.vs b).toFinset).card = D →
      b ∈ T.ns a ∧ a ∈ T.ns b) ∧
    ((∀ i, T.contains i = true → Simp pts (T.vs i).toFinset) →
      (∀ q ∈ convexHull K (pts '' (S : Set Nat)), ∃ i, T.contains i = true ∧
        q ∈ convexHull K (pts '' {v | v ∈ T.vs i})) →
      (∀ i j, T.contains i = true → T.contains j = true →
        convexHull K (pts '' {v | v ∈ T.vs i}) ∩ convexHull K (pts '' {v | v ∈ T.vs j}) ⊆
          convexHull K (pts '' {v | v ∈ T.vs i ∧ v ∈ T.vs j})) →
      (∀ i j, T.contains i = true → T.contains j = true → ∀ u v, u ∈ T.vs i → u ∉ T.vs j → v ∈ T.vs j → v ∉ T.vs i →
        ((T.vs i).toFinset ∩ (T.vs j).toFinset).card = D → 2 ^ 64 - 2 ^ D ≤ u → 2 ^ 64 - 2 ^ D ≤ v →
        ∀ c ρ, (∀ k ∈ T.vs i, dist2 (pts k) c = ρ) → ρ < dist2 (pts v) c) →
      ∀ i, T.contains i = true → ∀ c ρ, (∀ v ∈ T.vs i, dist2 (pts v) c = ρ) →
        ∀ q ∈ S, q ∉ T.vs i → ρ < dist2 (pts q) c) := by
  obtain ⟨rep', h1, h2⟩ := C57_checks (hash := hash) (inSph := inSph) hD hl hp
  rw [h1] at hv
  obtain rfl := Option.some.inj hv
  have H := h2.mp hval
  have hlen := fun i hi => hp.stored.len i hi
  have hnd : ∀ i, T.contains i = true → (T.vs i).Nodup := fun i hi => (hp.sorted i hi).imp fun h => ne_of_lt h
  have hcard : ∀ i, T.contains i = true → (T.vs i).toFinset.card = D + 1 := fun i hi => by
    rw [List.toFinset_card_of_nodup (hnd i hi), hlen i hi]
  have hnb : ∀ a b, T.contains a = true → T.contains b = true →
      ((T.vs a).toFinset ∩ (T.vs b).toFinset).card = D → b ∈ T.ns a ∧ a ∈ T.ns b := by
    intro a b ha hb hc
    obtain ⟨v, hx⟩ := across_of_card (hcard a ha) (hcard b hb) hc
    exact (H.nbs a b ha hb (faceKey_common hash (hnd a ha) (hnd b hb) (hlen a ha) (hlen b hb) hx)).1 hc
  refine ⟨?_, fun i hi => ⟨H.hullOnly i, H.hullAll i hi⟩, ?_, hnb, ?_⟩
  · simp only [hS]; exact H.points
  · intro a b ha hb he
    refine H.once a b ha hb ?_
    refine List.Perm.eq_of_pairwise (le := (· < ·)) (fun a b _ _ h1 h2 => absurd h2 (lt_asymm h1))
      (hp.sorted a ha) (hp.sorted b hb) ?_
    exact (List.perm_ext_iff_of_nodup (hnd a ha) (hnd b hb)).mpr fun v => by
      rw [← List.mem_toFinset, he, List.mem_toFinset]
  · intro hsimp hcov hprop hinf i hi c ρ hc q hq hqi
    let F : Set (Finset Nat) := {t | ∃ i, T.contains i = true ∧ (T.vs i).toFinset = t}
    have hF : IsTriang (K := K) (fun i => hom (pts i)) S F := by
      refine isTriang_of ⟨_, i, hi, rfl⟩ ?_ ?_ ?_ ?_
      · rintro _ ⟨j, hj, rfl⟩
        exact ⟨fun v hv => (hS v).mpr ⟨j, hj, List.mem_toFinset.mp hv⟩, hsimp j hj⟩
      · intro q hq
        obtain ⟨j, hj, hm⟩ := hcov q hq
        refine ⟨_, ⟨j, hj, rfl⟩, ?_⟩
        rw [coe_toFinset_vs]; exact hm
      · rintro _ ⟨j, hj, rfl⟩ _ ⟨k, hk, rfl⟩
        have e : (((T.vs j).toFinset ∩ (T.vs k).toFinset : Finset Nat) : Set Nat) = {v | v ∈ T.vs j ∧ v ∈ T.vs k} := by
          ext v; simp
        rw [coe_toFinset_vs, coe_toFinset_vs, e]
        exact hprop j k hj hk
      · intro p hp'
        obtain ⟨j, hj, hm⟩ := (hS p).mp hp'
        exact ⟨_, ⟨j, hj, rfl⟩, List.mem_toFinset.mpr hm⟩
    -- one direction of the local condition
    have hone : ∀ a b, T.contains a = true → T.contains b = true →
        ((T.vs a).toFinset ∩ (T.vs b).toFinset).card = D → ∀ u ∈ T.vs b, u ∉ T.vs a → u < 2 ^ 64 - 2 ^ D →
        ∀ f : K × Vec D K →ₗ[K] K, Interp (fun i => hom (pts i)) (fun i => nsq (pts i)) (T.vs a).toFinset f →
          f (hom (pts u)) < nsq (pts u) := by
      intro a b ha hb hcd u hu hua huf f hf
      obtain ⟨c, ρ, rfl⟩ := exists_ball f
      have hf' := interp_ball.mp hf
      have hns := (hnb a b ha hb hcd).1
      have := H.circ a ha b hns (hp.stored.ne_inf hb) u hu huf hua
      rw [← Bool.not_eq_true, hin (T.vs a) (hnd a ha) (hsimp a ha) c ρ
        (fun v hv => hf' v (List.mem_toFinset.mpr hv)) u] at this
      rw [ball_hom]
      linarith [not_le.mp this]
    have hdel := hF.local_global (h := fun i => nsq (pts i)) (by
      rintro _ ⟨a, ha, rfl⟩ v hv u hu ⟨b, hb, hbe⟩
      have hx : Across (T.vs a).toFinset v (T.vs b).toFinset := ⟨hv, u, hu, hbe⟩
      have hcd : ((T.vs a).toFinset ∩ (T.vs b).toFinset).card = D := by
        have := card_of_across hx
        rw [hcard a ha] at this
        omega
      have hub : u ∈ T.vs b := by
        rw [← List.mem_toFinset, hbe]; exact Finset.mem_insert_self _ _
      have hua : u ∉ T.vs a := fun h => hu (List.mem_toFinset.mpr h)
      have hva : v ∈ T.vs a := List.mem_toFinset.mp hv
      have hvb : v ∉ T.vs b := by
        rw [← List.mem_toFinset, hbe, Finset.mem_insert]
        rintro (rfl | h)
        · exact hu hv
        · exact absurd rfl (Finset.ne_of_mem_erase h)
      by_cases huf : u < 2 ^ 64 - 2 ^ D
      · exact Or.inl (hone a b ha hb hcd u hub hua huf)
      · by_cases hvf : v < 2 ^ 64 - 2 ^ D
        · refine Or.inr ?_
          rw [← hbe]
          exact hone b a hb ha (by rw [Finset.inter_comm]; exact hcd) v hva hvb hvf
        · refine Or.inl fun f hf => ?_
          obtain ⟨c, ρ, rfl⟩ := exists_ball f
          have hf' := interp_ball.mp hf
          have := hinf a b ha hb v u hva hvb hub hua hcd (not_lt.mp hvf) (not_lt.mp huf) c ρ
            fun k hk => hf' k (List.mem_toFinset.mpr hk)
          rw [ball_hom]
          linarith) _ ⟨i, hi, rfl⟩
    obtain ⟨_, _, f, hf, hlt⟩ := hdel
    have e := Interp.unique (isSimp_iff.mpr (hsimp i hi)) hf
      (interp_ball.mpr fun v hv => hc v (List.mem_toFinset.mp hv))
    have := hlt q hq (fun h => hqi (List.mem_toFinset.mp h))
    rw [e, ball_hom] at this
    linarith

/-- **C57 (acceptance, partial).** The Delaunay triangulation of points of which no one lies on the circumsphere of
a simplex it does not belong to (heights `|p|²`, strict) is accepted, with empty lists. Missing: cospherical points,
see `C57_cospherical_violated`. -/
theorem C57_accepts_partial (hD : D ≤ 64) (hT : IsDT D (fun i => hom (pts i)) (fun i => nsq (pts i)) S T)
    (hl : T.Lists l) (hin : InSphereOk pts inSph) (hsize : 0 < P.fsize ∧ P.offset + P.fsize ≤ 2 ^ 64 - 2 ^ D)
    (hused : ∀ p ∈ S, Used T p)
    (hpts : (S = P.all D ∧ (ids = none → P.offset = 0) ∧ ∀ s, ids = some s → s ⊆ P.all D) ∨
      ∃ s ⊆ P.all D, ids = some s ∧ S ⊆ P.all D ∧ ∀ v, v < 2 ^ 64 - 2 ^ D → (v ∈ S ↔ v ∈ s)) :
    verify D hash inSph P ids T l = some ⟨true, [], [], []⟩ := by
  have hall : ∀ i ∈ P.all D, P.readable D i = true ∧ i < 2 ^ 64 := by
    intro i hi
    rw [PtsBox.all, Finset.mem_union, Finset.mem_filter, Finset.mem_Ioo, Finset.mem_Ico] at hi
    have := Nat.one_le_two_pow (n := D)
    refine ⟨?_, by omega⟩
    unfold PtsBox.readable
    split_ifs with hf
    · rw [Part.isFinite_iff'] at hf
      simp only [Bool.and_eq_true, decide_eq_true_eq]
      omega
    · rfl
  have hSall : S ⊆ P.all D := by
    rcases hpts with ⟨h, _⟩ | ⟨s, _, _, h, _⟩
    · rw [h]
    · exact h
  have hsub : ∀ i, T.contains i = true → ∀ v ∈ T.vs i, v ∈ S := fun i hi v hv =>
    (hT.sound i hi).1 (List.mem_toFinset.mpr hv)
  have hst := hT.stored finrank_hom
  have hp : VerifyPre D P ids T := {
    stored := hst
    sorted := hT.sorted
    hull := fun i hi => (Tri.contains_iff.mp ((hT.hull.2 i).mp hi).1).1
    range := fun i hi v hv => (hall v (hSall (hsub i hi v hv))).2
    points := fun i hi m hm hf p hp => (hall p (hSall (hsub m (hT.wf.ns i hi m hm hf) p hp))).1
    size := hsize
    given := by
      intro s hs i hi
      rcases hpts with ⟨_, _, h⟩ | ⟨s', h, hs', _⟩
      · exact (hall i (h s hs hi)).1
      · rw [hs] at hs'
        obtain rfl := Option.some.inj hs'
        exact (hall i (h hi)).1
    noIds := by
      intro hs
      rcases hpts with ⟨_, h, _⟩ | ⟨s', _, hs', _⟩
      · exact h hs
      · rw [hs] at hs'; exact absurd hs' (by simp) }
  have hnd : ∀ i, T.contains i = true → (T.vs i).Nodup := fun i hi => (hp.sorted i hi).imp fun h => ne_of_lt h
  have hcard : ∀ i, T.contains i = true → (T.vs i).toFinset.card = D + 1 := fun i hi => by
    rw [List.toFinset_card_of_nodup (hnd i hi), hst.len i hi]
  have huiff : ∀ v, Used T v ↔ v ∈ S := fun v => ⟨fun ⟨i, hi, hv⟩ => hsub i hi v hv, hused v⟩
  have hch : Checks D hash inSph P ids T := {
    points := by
      simp only [huiff]
      rcases hpts with ⟨h, _⟩ | ⟨s, _, hs, _, h⟩
      · exact Or.inl fun v => by rw [h]
      · exact Or.inr ⟨s, hs, h⟩
    hullAll := fun i hi hv => (hT.hull.2 i).mpr ⟨hi, vsFinite_false.mpr hv⟩
    hullOnly := fun i hi => vsFinite_false.mp ((hT.hull.2 i).mp hi).2
    once := fun a b ha hb he => hT.unique a b ha hb (by rw [he])
    nbs := by
      intro a b ha hb _
      constructor
      · intro hc
        obtain ⟨v, hx⟩ := across_of_card (hcard a ha) (hcard b hb) hc
        obtain ⟨u, hx'⟩ := hx.symm
        exact ⟨hT.mem_ns ha hb hx finrank_hom, hT.mem_ns hb ha hx' finrank_hom⟩
      · intro hc
        constructor
        · intro hm
          obtain ⟨_, v, hx⟩ := hT.of_mem_ns ha hm (hst.ne_inf hb)
          have := card_of_across hx
          rw [hcard a ha] at this
          omega
        · intro hm
          obtain ⟨_, v, hx⟩ := hT.of_mem_ns hb hm (hst.ne_inf ha)
          have := card_of_across hx
          rw [hcard b hb, Finset.inter_comm] at this
          omega
    circ := by
      intro a ha m hm hf p hp' _ hpa
      obtain ⟨_, hs, c, ρ, h1, h2⟩ := isDel_iff.mp (hT.sound a ha)
      rw [← Bool.not_eq_true, hin (T.vs a) (hnd a ha) hs c ρ (fun v hv => h1 v (List.mem_toFinset.mpr hv)) p]
      exact not_le.mpr (h2 p (hsub m (hT.wf.ns a ha m hm hf) p hp') fun h => hpa (List.mem_toFinset.mp h)) }
  obtain ⟨rep, h1, h2⟩ := C57_checks (hash := hash) (inSph := inSph) hD hl hp
  have hval := h2.mpr hch
  rw [h1]
  unfold verify at h1
  split at h1
  · obtain rfl := (Option.some.inj h1).symm
    simp only [Bool.and_eq_true, List.isEmpty_iff] at hval ⊢
    obtain ⟨⟨⟨⟨⟨a, b⟩, c⟩, d⟩, e⟩, f⟩ := hval
    rw [a, b, c, d, e, f]
    rfl
  · exact absurd h1 (by simp)

end

/-! ### The checks of the program on its own result -/

section
variable {K : Type} [Field K] [LinearOrder K] [IsStrictOrderedRing K] {D : Nat} {pts : Nat → Vec D K}
  {S₀ : Finset Nat} {T R : Tri} {h : Nat → K}
variable {hash : Nat → BitVec 32} {depth cutoff : Nat} {parEdge : Bool} {base : Finset Nat → Tri → Prop}
  {sp : Part.Splitter} {big tiny : K} {cs : List Nat → Sphere D K}

/-- **C57.** The result of the divide-and-conquer triangulator for points without cospherical exceptions passes
`verify`. (src/exe/DAC_Test.cpp:149-150) -/
theorem C57_triangulator_partial {P : PtsBox} {ids : Option (Finset Nat)} {l : List Nat}
    {inSph : List Nat → Nat → Bool} (hs : Scene D pts S₀)
    (hq : SettingOk depth cutoff sp big tiny pts cs S₀)
    (hgp : ∀ s ⊆ S₀, Simp pts s → ∀ c ρ, (∀ v ∈ s, dist2 (pts v) c = ρ) → ∀ i ∈ S₀, i ∉ s → dist2 (pts i) c ≠ ρ)
    (hb : BaseOk pts (fun i => nsq (pts i)) base S₀)
    (hT : Triangulate (params hash depth cutoff parEdge base sp big tiny pts cs) 1 S₀ T)
    (hl : T.Lists l) (hin : InSphereOk pts inSph) (hsize : 0 < P.fsize ∧ P.offset + P.fsize ≤ 2 ^ 64 - 2 ^ D)
    (hpts : (S₀ = P.all D ∧ (ids = none → P.offset = 0) ∧ ∀ s, ids = some s → s ⊆ P.all D) ∨
      ∃ s ⊆ P.all D, ids = some s ∧ S₀ ⊆ P.all D ∧ ∀ v, v < 2 ^ 64 - 2 ^ D → (v ∈ S₀ ↔ v ∈ s)) :
    verify D hash inSph P ids T l = some ⟨true, [], [], []⟩ := by
  have ht := Tie.ofGeneral hs.distinct hgp
  have hw := hs.world ht
  have hr := (triangulate_correct _ hq.dim hw (hq.params hs ht hb) 1 S₀ T hT le_rfl hs.inf
    (Finset.Subset.refl _)).1
  refine C57_accepts_partial hq.dim hr hl hin hsize ?_ hpts
  intro p hp
  obtain ⟨b, hb, hlt⟩ := hw.nh p hp
  have hsp : (⊤ : Submodule K (K × Vec D K)) ≤ Submodule.span K ((fun i => hom (pts i)) '' (S₀ : Set Nat)) :=
    hw.span.trans (Submodule.span_mono (Set.image_mono (Finset.coe_subset.mpr hw.inf)))
  obtain ⟨t, ht, hpt⟩ := exists_isDel hw.gp hsp hp (a := b) (fun i hi => by
    by_cases he : i = p
    · rw [he, hb]
    · exact (hlt i hi he).le) hb
  obtain ⟨i, hi, rfl⟩ := hr.complete t ht
  exact ⟨i, hi, List.mem_toFinset.mp hpt⟩

/-- **C56.** The cross check of the result against a triangulation of all points by the base triangulator
succeeds. (src/exe/DAC_Test.cpp:149-150) -/
theorem C56_triangulator {map : List (BitVec 32 × Nat)} {mine : List Nat} {chunks : List (List Nat)}
    (hs : Scene D pts S₀) (hq : SettingOk depth cutoff sp big tiny pts cs S₀) (ht : Tie pts h S₀)
    (hb : BaseOk pts h base S₀)
    (hT : Triangulate (params hash depth cutoff parEdge base sp big tiny pts cs) 1 S₀ T) (hR : base S₀ R)
    (hmine : T.Lists mine) (hr : R.Lists chunks.flatten) (hm : LookupOk hash T R map mine chunks.flatten) :
    crossCheck hash T R map mine chunks = some ⟨true, [], []⟩ :=
  C56_accepts finrank_hom (triangulate_correct _ hq.dim (hs.world ht) (hq.params hs ht hb) 1 S₀ T hT le_rfl hs.inf
    (Finset.Subset.refl _)).1 (hb S₀ R hs.inf (Finset.Subset.refl _) hR).1 hmine hr hm

end

/-! ### Where verification and Delaunay property differ -/

theorem simp_of_orient2 {K : Type} [Field K] [LinearOrder K] [IsStrictOrderedRing K] {pts : Nat → Vec 2 K}
    {x y z : Nat} (ho : Geom.orient2 (pts x) (pts y) (pts z) ≠ 0) : Simp pts ([x, y, z] : List Nat).toFinset := by
  have hset : ([x, y, z] : List Nat).toFinset = {x, y, z} := by ext; simp
  rw [hset]
  have hne : x ≠ y ∧ x ≠ z ∧ y ≠ z := by
    refine ⟨?_, ?_, ?_⟩ <;> rintro rfl <;> exact ho (by simp only [Geom.orient2]; ring)
  obtain ⟨h1, h2, h3⟩ := hne
  rw [← isSimp_iff]
  refine ⟨?_, ?_⟩
  · rw [finrank_hom]
    rw [Finset.card_insert_of_notMem (by simp [h1, h2]), Finset.card_pair h3]
  · rintro ⟨s, w⟩ -
    have hx : hom (pts x) ∈ (fun i => hom (pts i)) '' (({x, y, z} : Finset Nat) : Set Nat) := ⟨x, by simp, rfl⟩
    have hy : hom (pts y) ∈ (fun i => hom (pts i)) '' (({x, y, z} : Finset Nat) : Set Nat) := ⟨y, by simp, rfl⟩
    have hz : hom (pts z) ∈ (fun i => hom (pts i)) '' (({x, y, z} : Finset Nat) : Set Nat) := ⟨z, by simp, rfl⟩
    let o := (pts y 0 - pts x 0) * (pts z 1 - pts x 1) - (pts y 1 - pts x 1) * (pts z 0 - pts x 0)
    have ho' : o ≠ 0 := by
      intro h
      apply ho
      simp only [o] at h
      simp only [Geom.orient2]
      linear_combination h
    let b := ((w 0 - s * pts x 0) * (pts z 1 - pts x 1) - (w 1 - s * pts x 1) * (pts z 0 - pts x 0)) / o
    let c := ((pts y 0 - pts x 0) * (w 1 - s * pts x 1) - (pts y 1 - pts x 1) * (w 0 - s * pts x 0)) / o
    have hb : b * o = (w 0 - s * pts x 0) * (pts z 1 - pts x 1) - (w 1 - s * pts x 1) * (pts z 0 - pts x 0) :=
      div_mul_cancel₀ _ ho'
    have hc : c * o = (pts y 0 - pts x 0) * (w 1 - s * pts x 1) - (pts y 1 - pts x 1) * (w 0 - s * pts x 0) :=
      div_mul_cancel₀ _ ho'
    have e : ((s, w) : K × Vec 2 K) = (s - b - c) • hom (pts x) + b • hom (pts y) + c • hom (pts z) := by
      apply Prod.ext
      · simp [hom]; ring
      · funext i
        simp only [hom, Prod.smul_mk, Prod.mk_add_mk, Pi.add_apply, Pi.smul_apply, smul_eq_mul]
        apply mul_right_cancel₀ ho'
        fin_cases i
        · show w 0 * o = ((s - b - c) * pts x 0 + b * pts y 0 + c * pts z 0) * o
          have : ((s - b - c) * pts x 0 + b * pts y 0 + c * pts z 0) * o
            = s * pts x 0 * o + (b * o) * (pts y 0 - pts x 0) + (c * o) * (pts z 0 - pts x 0) := by ring
          rw [this, hb, hc]
          simp only [o]
          ring
        · show w 1 * o = ((s - b - c) * pts x 1 + b * pts y 1 + c * pts z 1) * o
          have : ((s - b - c) * pts x 1 + b * pts y 1 + c * pts z 1) * o
            = s * pts x 1 * o + (b * o) * (pts y 1 - pts x 1) + (c * o) * (pts z 1 - pts x 1) := by ring
          rw [this, hb, hc]
          simp only [o]
          ring
    rw [e]
    exact Submodule.add_mem _ (Submodule.add_mem _ (Submodule.smul_mem _ _ (Submodule.subset_span hx))
      (Submodule.smul_mem _ _ (Submodule.subset_span hy))) (Submodule.smul_mem _ _ (Submodule.subset_span hz))

/-- Two triangles, with their vertices and neighbours. -/
def twoTri (a na b nb : List Nat) : Tri := triOf 1 [(a, na), (b, nb)] []

theorem twoTri_contains {a na b nb : List Nat} {i : Nat} :
    (twoTri a na b nb).contains i = true ↔ i = 1 ∨ i = 2 := by
  rw [twoTri, triOf_contains (by simp)]
  simp only [List.length_cons, List.length_nil]
  omega

theorem twoTri_lists {a na b nb : List Nat} : (twoTri a na b nb).Lists [1, 2] := triOf_lists (l := [(a, na), (b, nb)]) (by simp)

/-- The points `1, …, 6` given by coordinates. -/
def ptsOf (l : List (ℚ × ℚ)) (i : Nat) : Vec 2 ℚ := ![(l.getD (i - 1) (0, 0)).1, (l.getD (i - 1) (0, 0)).2]

theorem twoTri_pre {a na b nb : List Nat} {n : Nat} {s : Finset Nat} (hn : n = 4 ∨ n = 6)
    (ha : a.length = 3 ∧ a.Pairwise (· < ·) ∧ ∀ v ∈ a, v ≤ n) (hb : b.length = 3 ∧ b.Pairwise (· < ·) ∧ ∀ v ∈ b, v ≤ n)
    (hna : ∀ m ∈ na, m ≠ sINF → m = 1 ∨ m = 2) (hnb : ∀ m ∈ nb, m ≠ sINF → m = 1 ∨ m = 2)
    (hs : ∀ v ∈ s, v ≤ n) : VerifyPre 2 ⟨0, n + 1⟩ (some s) (twoTri a na b nb) := by
  have hr : ∀ v, v ≤ n → PtsBox.readable 2 ⟨0, n + 1⟩ v = true := by
    intro v hv
    unfold PtsBox.readable
    split_ifs
    · simp only [Bool.and_eq_true, decide_eq_true_eq]; omega
    · rfl
  have hns : ∀ i, (twoTri a na b nb).contains i = true → ∀ m ∈ (twoTri a na b nb).ns i, m ≠ sINF → m = 1 ∨ m = 2 := by
    intro i hi
    rcases twoTri_contains.mp hi with rfl | rfl
    · exact hna
    · exact hnb
  refine ⟨⟨fun i _ => rfl, ?_, ?_⟩, ?_, by simp [twoTri, triOf], ?_, ?_, ?_, ?_, by simp⟩
  · intro i hi m hm hf
    rcases hns i hi m hm hf with rfl | rfl
    · exact ⟨by simp [twoTri, triOf], ha.1⟩
    · exact ⟨by simp [twoTri, triOf], hb.1⟩
  · intro i hi
    rcases twoTri_contains.mp hi with rfl | rfl
    · exact ha.1
    · exact hb.1
  · intro i hi
    rcases twoTri_contains.mp hi with rfl | rfl
    · exact ha.2.1
    · exact hb.2.1
  · intro i hi v hv
    have : v ≤ n := by
      rcases twoTri_contains.mp hi with rfl | rfl
      · exact ha.2.2 v hv
      · exact hb.2.2 v hv
    omega
  · intro i hi m hm hf p hp
    refine hr p ?_
    rcases hns i hi m hm hf with rfl | rfl
    · exact ha.2.2 p hp
    · exact hb.2.2 p hp
  · exact ⟨by simp, by show 0 + (n + 1) ≤ 2 ^ 64 - 2 ^ 2; omega⟩
  · intro t ht i hi
    obtain rfl := Option.some.inj ht
    exact hr i (hs i hi)

/-- **C57 (negation).** That the simplices cover the hull without overlaps is not checked: of two triangles, one
inside of the other, all conditions hold, and a vertex of one is strictly inside of the circumcircle of the other. -/
theorem C57_overlap_violated :
    ∃ (pts : Nat → Vec 2 ℚ) (P : PtsBox) (s : Finset Nat) (T : Tri) (l : List Nat), T.Lists l ∧
      VerifyPre 2 P (some s) T ∧ (∀ i, T.contains i = true → Simp pts (T.vs i).toFinset) ∧
      verify 2 wHash (inSph2 pts) P (some s) T l = some ⟨true, [], [], []⟩ ∧
      ∃ i, T.contains i = true ∧ ∃ c ρ, (∀ v ∈ T.vs i, dist2 (pts v) c = ρ) ∧ ∃ q ∈ s, dist2 (pts q) c < ρ := by
  refine ⟨ptsOf [(0, 0), (4, 0), (0, 4), (1, 1), (2, 1), (1, 2)], ⟨0, 7⟩, {1, 2, 3, 4, 5, 6},
    twoTri [1, 2, 3] [sINF, sINF, sINF] [4, 5, 6] [sINF, sINF, sINF], [1, 2], twoTri_lists,
    twoTri_pre (Or.inr rfl) (by decide) (by decide) (by decide) (by decide) (by decide), ?_, by decide +kernel,
    1, twoTri_contains.mpr (Or.inl rfl), ![2, 2], 8, by decide +kernel, 4, by decide, by decide +kernel⟩
  intro i hi
  rcases twoTri_contains.mp hi with rfl | rfl
  · show Simp _ ([1, 2, 3] : List Nat).toFinset
    exact simp_of_orient2 (by decide +kernel)
  · show Simp _ ([4, 5, 6] : List Nat).toFinset
    exact simp_of_orient2 (by decide +kernel)

/-- **C57 (negation).** A wrong neighbour entry is accepted if the simplices have no face with the same hash. -/
theorem C57_neighbors_violated :
    ∃ (pts : Nat → Vec 2 ℚ) (P : PtsBox) (s : Finset Nat) (T : Tri) (l : List Nat), T.Lists l ∧
      VerifyPre 2 P (some s) T ∧ (∀ i, T.contains i = true → Simp pts (T.vs i).toFinset) ∧
      verify 2 wHash (inSph2 pts) P (some s) T l = some ⟨true, [], [], []⟩ ∧
      ∃ i j, T.contains i = true ∧ T.contains j = true ∧ j ∈ T.ns i ∧ Disjoint (T.vs i).toFinset (T.vs j).toFinset := by
  refine ⟨ptsOf [(0, 0), (1, 0), (0, 1), (10, 10), (11, 10), (10, 11)], ⟨0, 7⟩, {1, 2, 3, 4, 5, 6},
    twoTri [1, 2, 3] [2, sINF, sINF] [4, 5, 6] [1, sINF, sINF], [1, 2], twoTri_lists,
    twoTri_pre (Or.inr rfl) (by decide) (by decide) (by decide) (by decide) (by decide), ?_, by decide +kernel,
    1, 2, twoTri_contains.mpr (Or.inl rfl), twoTri_contains.mpr (Or.inr rfl), by decide, by decide⟩
  intro i hi
  rcases twoTri_contains.mp hi with rfl | rfl
  · show Simp _ ([1, 2, 3] : List Nat).toFinset
    exact simp_of_orient2 (by decide +kernel)
  · show Simp _ ([4, 5, 6] : List Nat).toFinset
    exact simp_of_orient2 (by decide +kernel)

/-- The hull of three points. -/
theorem mem_hull3 {pts : Nat → Vec 2 ℚ} {x y z : Nat} (h1 : x ≠ y) (h2 : x ≠ z) (h3 : y ≠ z) {q : Vec 2 ℚ} :
    q ∈ convexHull ℚ (pts '' {v | v ∈ [x, y, z]}) ↔ ∃ a b c : ℚ, 0 ≤ a ∧ 0 ≤ b ∧ 0 ≤ c ∧ a + b + c = 1 ∧
      q 0 = a * pts x 0 + b * pts y 0 + c * pts z 0 ∧ q 1 = a * pts x 1 + b * pts y 1 + c * pts z 1 := by
  have e : {v | v ∈ [x, y, z]} = (({x, y, z} : Finset Nat) : Set Nat) := by ext; simp
  rw [e, ← inCone_iff]
  have hsum : ∀ ν : Nat → ℚ, ∑ i ∈ ({x, y, z} : Finset Nat), ν i • hom (pts i)
      = ν x • hom (pts x) + (ν y • hom (pts y) + ν z • hom (pts z)) := by
    intro ν
    rw [Finset.sum_insert (by simp [h1, h2]), Finset.sum_pair h3]
  constructor
  · rintro ⟨ν, hν, he⟩
    rw [hsum] at he
    have e1 := congrArg Prod.fst he
    have e2 := congrFun (congrArg Prod.snd he)
    simp only [hom, Prod.smul_mk, Prod.mk_add_mk, Pi.add_apply, Pi.smul_apply, smul_eq_mul, mul_one] at e1 e2
    exact ⟨ν x, ν y, ν z, hν x (by simp), hν y (by simp), hν z (by simp), by linarith,
      by rw [e2 0]; ring, by rw [e2 1]; ring⟩
  · rintro ⟨a, b, c, ha, hb, hc, hs, e0, e1⟩
    refine ⟨fun i => if i = x then a else if i = y then b else c, ?_, ?_⟩
    · intro i _
      dsimp only
      split_ifs <;> assumption
    · rw [hsum]
      simp only [if_true, if_neg h1.symm, if_neg h2.symm, if_neg h3.symm]
      apply Prod.ext
      · simp [hom]; linarith
      · funext i
        simp only [hom, Prod.smul_mk, Prod.mk_add_mk, Pi.add_apply, Pi.smul_apply, smul_eq_mul]
        fin_cases i
        · show q 0 = _; rw [e0]; simp; ring
        · show q 1 = _; rw [e1]; simp; ring

/-- **C57 (negation).** Valid Delaunay triangulations of cospherical points are rejected: `inSphere` tests for the
closed ball. The unit square with one diagonal. -/
theorem C57_cospherical_violated :
    ∃ (pts : Nat → Vec 2 ℚ) (P : PtsBox) (s : Finset Nat) (T : Tri) (l : List Nat), T.Lists l ∧
      VerifyPre 2 P (some s) T ∧ Delaunay 2 pts s T ∧ (∀ v ∈ s, Used T v) ∧
      ∃ rep, verify 2 wHash (inSph2 pts) P (some s) T l = some rep ∧ rep.valid = false := by
  let pts := ptsOf [(0, 0), (1, 0), (0, 1), (1, 1)]
  let T := twoTri [1, 2, 3] [2, sINF, sINF] [2, 3, 4] [sINF, sINF, 1]
  have s1 : Simp pts ([1, 2, 3] : List Nat).toFinset := simp_of_orient2 (by decide +kernel)
  have s2 : Simp pts ([2, 3, 4] : List Nat).toFinset := simp_of_orient2 (by decide +kernel)
  have hsq : ∀ v ∈ ({1, 2, 3, 4} : Finset Nat), dist2 (pts v) ![1/2, 1/2] = 1/2 := by decide +kernel
  have p1 : pts 1 0 = 0 ∧ pts 1 1 = 0 := by decide +kernel
  have p2 : pts 2 0 = 1 ∧ pts 2 1 = 0 := by decide +kernel
  have p3 : pts 3 0 = 0 ∧ pts 3 1 = 1 := by decide +kernel
  have p4 : pts 4 0 = 1 ∧ pts 4 1 = 1 := by decide +kernel
  refine ⟨pts, ⟨0, 5⟩, {1, 2, 3, 4}, T, [1, 2], twoTri_lists,
    twoTri_pre (Or.inl rfl) (by decide) (by decide) (by decide) (by decide) (by decide), ?_, ?_,
    _, rfl, by decide +kernel⟩
  · have hT : ∀ i, T.contains i = true → (i = 1 ∨ i = 2) := fun i => twoTri_contains.mp
    have hsimp : ∀ i, T.contains i = true → Simp pts (T.vs i).toFinset := by
      intro i hi
      rcases hT i hi with rfl | rfl
      · exact s1
      · exact s2
    have hsub : ∀ i, T.contains i = true → (T.vs i).toFinset ⊆ {1, 2, 3, 4} := by
      intro i hi
      rcases hT i hi with rfl | rfl <;> decide
    have q1 : ∀ q : Vec 2 ℚ, q ∈ convexHull ℚ (pts '' {v | v ∈ T.vs 1}) ↔ 0 ≤ q 0 ∧ 0 ≤ q 1 ∧ q 0 + q 1 ≤ 1 := by
      intro q
      show q ∈ convexHull ℚ (pts '' {v | v ∈ [1, 2, 3]}) ↔ _
      rw [mem_hull3 (by decide) (by decide) (by decide), p1.1, p1.2, p2.1, p2.2, p3.1, p3.2]
      constructor
      · rintro ⟨a, b, c, h1, h2, h3, h4, h5, h6⟩
        refine ⟨?_, ?_, ?_⟩ <;> linarith
      · rintro ⟨h1, h2, h3⟩
        exact ⟨1 - q 0 - q 1, q 0, q 1, by linarith, h1, h2, by ring, by ring, by ring⟩
    have q2 : ∀ q : Vec 2 ℚ, q ∈ convexHull ℚ (pts '' {v | v ∈ T.vs 2}) ↔ q 0 ≤ 1 ∧ q 1 ≤ 1 ∧ 1 ≤ q 0 + q 1 := by
      intro q
      show q ∈ convexHull ℚ (pts '' {v | v ∈ [2, 3, 4]}) ↔ _
      rw [mem_hull3 (by decide) (by decide) (by decide), p4.1, p4.2, p2.1, p2.2, p3.1, p3.2]
      constructor
      · rintro ⟨a, b, c, h1, h2, h3, h4, h5, h6⟩
        refine ⟨?_, ?_, ?_⟩ <;> linarith
      · rintro ⟨h1, h2, h3⟩
        exact ⟨1 - q 1, 1 - q 0, q 0 + q 1 - 1, by linarith, by linarith, by linarith, by ring, by ring, by ring⟩
    have seg : ∀ q : Vec 2 ℚ, 0 ≤ q 0 → 0 ≤ q 1 → q 0 + q 1 = 1 →
        q ∈ convexHull ℚ (pts '' {v | v ∈ T.vs 1 ∧ v ∈ T.vs 2}) := by
      intro q h0 h1 h2
      have e : q = q 0 • pts 2 + q 1 • pts 3 := by
        funext i
        fin_cases i
        · show q 0 = q 0 * pts 2 0 + q 1 * pts 3 0
          rw [p2.1, p3.1]; ring
        · show q 1 = q 0 * pts 2 1 + q 1 * pts 3 1
          rw [p2.2, p3.2]; ring
      have m2 : pts 2 ∈ pts '' {v | v ∈ T.vs 1 ∧ v ∈ T.vs 2} := ⟨2, by decide, rfl⟩
      have m3 : pts 3 ∈ pts '' {v | v ∈ T.vs 1 ∧ v ∈ T.vs 2} := ⟨3, by decide, rfl⟩
      rw [e]
      exact (convex_convexHull ℚ _) (subset_convexHull ℚ _ m2) (subset_convexHull ℚ _ m3) h0 h1 h2
    refine ⟨fun i hi => ⟨?_, hsub i hi, hsimp i hi⟩, ?_, ?_, ?_, ?_, ?_, ?_, ?_⟩
    · rcases hT i hi with rfl | rfl <;> decide
    · intro i hi c ρ hc q hq
      have := ball_unique (hsimp i hi) (fun v hv => hc v (List.mem_toFinset.mp hv))
        (fun v hv => hsq v (hsub i hi hv)) (pts q)
      rw [hsq q hq] at this
      linarith
    · intro t ht hst c ρ hc hout
      exfalso
      obtain ⟨q, hq, hqt⟩ : ∃ q ∈ ({1, 2, 3, 4} : Finset Nat), q ∉ t := by
        by_contra hno
        push_neg at hno
        have := Finset.card_le_card (show ({1, 2, 3, 4} : Finset Nat) ⊆ t from hno)
        rw [hst.1] at this
        revert this
        decide
      have := ball_unique hst hc (fun v hv => hsq v (ht hv)) (pts q)
      rw [hsq q hq] at this
      have := hout q hq hqt
      linarith
    · intro i j hi hj
      rcases hT i hi with rfl | rfl <;> rcases hT j hj with rfl | rfl <;> decide
    · intro q hq
      have hbox : convexHull ℚ (pts '' (({1, 2, 3, 4} : Finset Nat) : Set Nat)) ⊆
          {q : Vec 2 ℚ | (0 ≤ q 0 ∧ q 0 ≤ 1) ∧ (0 ≤ q 1 ∧ q 1 ≤ 1)} := by
        apply convexHull_min
        · rintro _ ⟨v, hv, rfl⟩
          have : v = 1 ∨ v = 2 ∨ v = 3 ∨ v = 4 := by simpa using hv
          rcases this with rfl | rfl | rfl | rfl <;> decide +kernel
        · intro a ha b hb r s hr hs hrs
          obtain ⟨⟨a1, a2⟩, a3, a4⟩ := ha
          obtain ⟨⟨b1, b2⟩, b3, b4⟩ := hb
          have hs' : s = 1 - r := by linarith
          have hr1 : r ≤ 1 := by linarith
          subst hs'
          refine ⟨⟨?_, ?_⟩, ?_, ?_⟩ <;> simp only [Pi.add_apply, Pi.smul_apply, smul_eq_mul] <;> nlinarith
      obtain ⟨⟨h1, h2⟩, h3, h4⟩ := hbox hq
      rcases le_total (q 0 + q 1) 1 with h | h
      · exact ⟨1, twoTri_contains.mpr (Or.inl rfl), (q1 q).mpr ⟨h1, h3, h⟩⟩
      · exact ⟨2, twoTri_contains.mpr (Or.inr rfl), (q2 q).mpr ⟨h2, h4, h⟩⟩
    · intro i j hi hj
      apply Set.Subset.antisymm
      · rcases hT i hi with rfl | rfl <;> rcases hT j hj with rfl | rfl
        · simp
        · rintro q ⟨h1, h2⟩
          obtain ⟨a1, a2, a3⟩ := (q1 q).mp h1
          obtain ⟨b1, b2, b3⟩ := (q2 q).mp h2
          exact seg q a1 a2 (le_antisymm a3 b3)
        · rintro q ⟨h1, h2⟩
          obtain ⟨a1, a2, a3⟩ := (q1 q).mp h2
          obtain ⟨b1, b2, b3⟩ := (q2 q).mp h1
          have := seg q a1 a2 (le_antisymm a3 b3)
          simpa only [and_comm] using this
        · simp
      · refine Set.subset_inter ?_ ?_ <;> refine convexHull_mono (Set.image_mono ?_)
        · exact fun v hv => hv.1
        · exact fun v hv => hv.2
    · intro i hi
      rcases hT i hi with rfl | rfl
      · refine ⟨rfl, ?_⟩
        intro d hd
        have : d = 0 ∨ d = 1 ∨ d = 2 := by omega
        rcases this with rfl | rfl | rfl
        · exact Or.inl ⟨2, rfl, twoTri_contains.mpr (Or.inr rfl), by decide, by decide⟩
        · refine Or.inr ⟨rfl, fun j hj hne => ?_⟩
          rcases hT j hj with rfl | rfl
          · exact absurd rfl hne
          · decide
        · refine Or.inr ⟨rfl, fun j hj hne => ?_⟩
          rcases hT j hj with rfl | rfl
          · exact absurd rfl hne
          · decide
      · refine ⟨rfl, ?_⟩
        intro d hd
        have : d = 0 ∨ d = 1 ∨ d = 2 := by omega
        rcases this with rfl | rfl | rfl
        · refine Or.inr ⟨rfl, fun j hj hne => ?_⟩
          rcases hT j hj with rfl | rfl
          · decide
          · exact absurd rfl hne
        · refine Or.inr ⟨rfl, fun j hj hne => ?_⟩
          rcases hT j hj with rfl | rfl
          · decide
          · exact absurd rfl hne
        · exact Or.inl ⟨1, rfl, twoTri_contains.mpr (Or.inl rfl), by decide, by decide⟩
    · refine ⟨by simp [T, twoTri, triOf], fun i => ?_⟩
      constructor
      · intro h; simp [T, twoTri, triOf] at h
      · rintro ⟨hi, v, hv, hle⟩
        have := hsub i hi (List.mem_toFinset.mpr hv)
        simp only [Finset.mem_insert, Finset.mem_singleton] at this
        omega
  · intro v hv
    simp only [Finset.mem_insert, Finset.mem_singleton] at hv
    rcases hv with rfl | rfl | rfl | rfl
    · exact ⟨1, twoTri_contains.mpr (Or.inl rfl), by decide⟩
    · exact ⟨1, twoTri_contains.mpr (Or.inl rfl), by decide⟩
    · exact ⟨1, twoTri_contains.mpr (Or.inl rfl), by decide⟩
    · exact ⟨2, twoTri_contains.mpr (Or.inr rfl), by decide⟩

/-- **C57 (negation).** Infinite vertices are not tested: the two triangles over the segment `1 2` with infinite
vertices are accepted though each of those is strictly inside of the other's circumcircle. -/
theorem C57_infinite_violated :
    ∃ (pts : Nat → Vec 2 ℚ) (P : PtsBox) (s : Finset Nat) (T : Tri) (l : List Nat), T.Lists l ∧
      VerifyPre 2 P (some s) T ∧ (∀ i, T.contains i = true → Simp pts (T.vs i).toFinset) ∧
      verify 2 wHash (inSph2 pts) P (some s) T l = some ⟨true, [], [], []⟩ ∧
      ∃ i, T.contains i = true ∧ ∃ c ρ, (∀ v ∈ T.vs i, dist2 (pts v) c = ρ) ∧
        ∃ q, Used T q ∧ dist2 (pts q) c < ρ := by
  let pts : Nat → Vec 2 ℚ := fun i => if i = 1 then ![0, 0] else if i = 2 then ![4, 0]
    else if i = 2 ^ 64 - 4 then ![2, 1] else ![2, -1]
  let T := triOf 1 [([1, 2, 2 ^ 64 - 4], [sINF, sINF, 2]), ([1, 2, 2 ^ 64 - 3], [sINF, sINF, 1])] [1, 2]
  have hT : ∀ i, T.contains i = true ↔ i = 1 ∨ i = 2 := by
    intro i
    rw [triOf_contains (by simp)]
    simp only [List.length_cons, List.length_nil]
    omega
  have hl : T.Lists [1, 2] := triOf_lists (by simp)
  have hs : ∀ i, T.contains i = true → Simp pts (T.vs i).toFinset := by
    intro i hi
    rcases (hT i).mp hi with rfl | rfl
    · show Simp _ ([1, 2, 2 ^ 64 - 4] : List Nat).toFinset
      exact simp_of_orient2 (by decide +kernel)
    · show Simp _ ([1, 2, 2 ^ 64 - 3] : List Nat).toFinset
      exact simp_of_orient2 (by decide +kernel)
  refine ⟨pts, ⟨0, 3⟩, {1, 2}, T, [1, 2], hl, ?_, hs, by decide +kernel, 1, (hT 1).mpr (Or.inl rfl), ![2, -3/2], 25/4,
    by decide +kernel, 2 ^ 64 - 3, ⟨2, (hT 2).mpr (Or.inr rfl), by decide⟩, by decide +kernel⟩
  refine ⟨⟨fun i _ => rfl, ?_, ?_⟩, ?_, by decide, ?_, ?_, by decide, ?_, by simp⟩
  · intro i hi
    rcases (hT i).mp hi with rfl | rfl <;> decide
  · intro i hi
    rcases (hT i).mp hi with rfl | rfl <;> decide
  · intro i hi
    rcases (hT i).mp hi with rfl | rfl <;> decide
  · intro i hi
    rcases (hT i).mp hi with rfl | rfl <;> decide
  · intro i hi
    rcases (hT i).mp hi with rfl | rfl <;> decide
  · intro t ht
    obtain rfl := Option.some.inj ht
    decide

/-- The points of the example. -/
def exPts : Nat → Vec 2 ℚ := ptsOf [(0, 0), (4, 0), (0, 4), (5, 5)]

/-- Their Delaunay triangulation. -/
def exTri : Tri := twoTri [1, 2, 3] [2, sINF, sINF] [2, 3, 4] [sINF, sINF, 1]

theorem exTri_vs {i : Nat} (hi : exTri.contains i = true) :
    IsDel (K := ℚ) (fun i => hom (exPts i)) (fun i => nsq (exPts i)) {1, 2, 3, 4} (exTri.vs i).toFinset := by
  rw [isDel_iff]
  rcases twoTri_contains.mp hi with rfl | rfl
  · exact ⟨by decide, simp_of_orient2 (x := 1) (y := 2) (z := 3) (by decide +kernel), ![2, 2], 8, by decide +kernel,
      by decide +kernel⟩
  · exact ⟨by decide, simp_of_orient2 (x := 2) (y := 3) (z := 4) (by decide +kernel), ![17/6, 17/6], 169/18,
      by decide +kernel, by decide +kernel⟩

theorem exTri_del {t : Finset Nat}
    (ht : IsDel (K := ℚ) (fun i => hom (exPts i)) (fun i => nsq (exPts i)) {1, 2, 3, 4} t) :
    t = {1, 2, 3} ∨ t = {2, 3, 4} := by
  obtain ⟨h1, h2, c, ρ, h3, h4⟩ := isDel_iff.mp ht
  have hbad : ∀ q ∈ ({1, 2, 3, 4} : Finset Nat), ∀ c' ρ', (∀ v ∈ t, dist2 (exPts v) c' = ρ') →
      dist2 (exPts q) c' < ρ' → q ∉ t → False := by
    intro q hq c' ρ' h5 h6 h7
    have := ball_unique h2 h3 h5 (exPts q)
    have := h4 q hq h7
    linarith
  have hcases : ∀ t ∈ ({1, 2, 3, 4} : Finset Nat).powersetCard 3,
      t = {1, 2, 3} ∨ t = {2, 3, 4} ∨ t = {1, 2, 4} ∨ t = {1, 3, 4} := by decide
  rcases hcases t (Finset.mem_powersetCard.mpr ⟨h1, h2.1⟩) with rfl | rfl | rfl | rfl
  · exact Or.inl rfl
  · exact Or.inr rfl
  · exact absurd (hbad 3 (by decide) ![2, 3] 13 (by decide +kernel) (by decide +kernel) (by decide)) id
  · exact absurd (hbad 2 (by decide) ![3, 2] 13 (by decide +kernel) (by decide +kernel) (by decide)) id

theorem Across.sub {t t' : Finset Nat} {v : Nat} (ha : Across t v t') : t.erase v ⊆ t' ∧ t' ≠ t := by
  obtain ⟨_, u, hu, rfl⟩ := ha
  exact ⟨Finset.subset_insert _ _, fun h => hu (h ▸ Finset.mem_insert_self _ _)⟩

theorem exTri_isDT : IsDT 2 (fun i => hom (exPts i)) (fun i => nsq (exPts i)) {1, 2, 3, 4} exTri where
  sound := fun i hi => exTri_vs hi
  complete := by
    intro t ht
    rcases exTri_del ht with rfl | rfl
    · exact ⟨1, twoTri_contains.mpr (Or.inl rfl), by decide⟩
    · exact ⟨2, twoTri_contains.mpr (Or.inr rfl), by decide⟩
  unique := by
    intro i j hi hj
    rcases twoTri_contains.mp hi with rfl | rfl <;> rcases twoTri_contains.mp hj with rfl | rfl <;> decide
  sorted := by
    intro i hi
    rcases twoTri_contains.mp hi with rfl | rfl <;> decide
  id := fun i _ => rfl
  nlen := by
    intro i hi
    rcases twoTri_contains.mp hi with rfl | rfl <;> decide
  nbr := by
    intro i hi d hd
    have hd' : d = 0 ∨ d = 1 ∨ d = 2 := by omega
    rcases twoTri_contains.mp hi with rfl | rfl <;> rcases hd' with rfl | rfl | rfl
    · exact Or.inl ⟨twoTri_contains.mpr (Or.inr rfl), by decide, 4, by decide, by decide⟩
    all_goals first
      | exact Or.inl ⟨twoTri_contains.mpr (Or.inl rfl), by decide, 1, by decide, by decide⟩
      | (refine Or.inr ⟨rfl, fun t ht ha => ?_⟩
         obtain ⟨h1, h2⟩ := Across.sub ha
         rcases exTri_del ht with rfl | rfl
         · first
             | exact h2 (by decide)
             | exact absurd h1 (by decide)
         · first
             | exact h2 (by decide)
             | exact absurd h1 (by decide))
  hull := by
    refine ⟨by simp [exTri, twoTri, triOf], fun i => ⟨fun h => by simp [exTri, twoTri, triOf] at h, ?_⟩⟩
    rintro ⟨hi, h⟩
    rcases twoTri_contains.mp hi with rfl | rfl <;> exact absurd h (by decide)

/-- The triangulation of the example is accepted. -/
example : verify 2 wHash (inSph2 exPts) ⟨0, 5⟩ (some {1, 2, 3, 4}) exTri [2, 1] = some ⟨true, [], [], []⟩ := by
  refine C57_accepts_partial (by decide) exTri_isDT ⟨by decide, fun i => ?_⟩ (inSphereOk2 exPts) (by decide) ?_
    (Or.inr ⟨{1, 2, 3, 4}, by decide +kernel, rfl, by decide +kernel, fun _ _ => Iff.rfl⟩)
  · rw [exTri, twoTri_contains]; simp [or_comm]
  · intro v hv
    simp only [Finset.mem_insert, Finset.mem_singleton] at hv
    rcases hv with rfl | rfl | rfl | rfl
    · exact ⟨1, twoTri_contains.mpr (Or.inl rfl), by decide⟩
    · exact ⟨1, twoTri_contains.mpr (Or.inl rfl), by decide⟩
    · exact ⟨1, twoTri_contains.mpr (Or.inl rfl), by decide⟩
    · exact ⟨2, twoTri_contains.mpr (Or.inr rfl), by decide⟩

/-- The hypotheses of `C57_sound_partial` hold for it, including the geometric ones. -/
example : ∀ i, exTri.contains i = true → ∀ c ρ, (∀ v ∈ exTri.vs i, dist2 (exPts v) c = ρ) →
    ∀ q ∈ ({1, 2, 3, 4} : Finset Nat), q ∉ exTri.vs i → ρ < dist2 (exPts q) c := by
  have hS : ∀ v, v ∈ ({1, 2, 3, 4} : Finset Nat) ↔ Used exTri v := by
    intro v
    constructor
    · intro hv
      simp only [Finset.mem_insert, Finset.mem_singleton] at hv
      rcases hv with rfl | rfl | rfl | rfl
      · exact ⟨1, twoTri_contains.mpr (Or.inl rfl), by decide⟩
      · exact ⟨1, twoTri_contains.mpr (Or.inl rfl), by decide⟩
      · exact ⟨1, twoTri_contains.mpr (Or.inl rfl), by decide⟩
      · exact ⟨2, twoTri_contains.mpr (Or.inr rfl), by decide⟩
    · rintro ⟨i, hi, hv⟩
      exact (exTri_vs hi).1 (List.mem_toFinset.mpr hv)
  have := C57_sound_partial (hash := wHash) (l := [1, 2]) (by decide) twoTri_lists
    (twoTri_pre (a := [1, 2, 3]) (na := [2, sINF, sINF]) (b := [2, 3, 4]) (nb := [sINF, sINF, 1])
      (s := {1, 2, 3, 4}) (Or.inl rfl) (by decide) (by decide) (by decide) (by decide) (by decide))
    (inSphereOk2 exPts) hS (rep := ⟨true, [], [], []⟩) (by decide +kernel) rfl
  refine this.2.2.2.2 (fun i hi => (isDel_iff.mp (exTri_vs hi)).2.1) ?_ ?_ ?_
  · intro q hq
    have hgp : GenPos (K := ℚ) (fun i => hom (exPts i)) (fun i => nsq (exPts i)) {1, 2, 3, 4} := by
      intro s hs hsimp a ha i hi his
      obtain ⟨c, ρ, rfl⟩ := exists_ball a
      have hb := interp_ball.mp ha
      have key : ∀ c' ρ', (∀ v ∈ s, dist2 (exPts v) c' = ρ') → dist2 (exPts i) c' ≠ ρ' →
          ball c ρ (hom (exPts i)) ≠ nsq (exPts i) := by
        intro c' ρ' h1 h2 h3
        have := ball_unique (isSimp_iff.mp hsimp) hb h1 (exPts i)
        rw [ball_hom] at h3
        exact h2 (by linarith)
      have hcases : ∀ t ∈ ({1, 2, 3, 4} : Finset Nat).powersetCard 3, ∀ i ∈ ({1, 2, 3, 4} : Finset Nat), i ∉ t →
          (t = {1, 2, 3} ∧ i = 4) ∨ (t = {2, 3, 4} ∧ i = 1) ∨ (t = {1, 2, 4} ∧ i = 3) ∨ (t = {1, 3, 4} ∧ i = 2) := by
        decide
      rcases hcases s (Finset.mem_powersetCard.mpr ⟨hs, (isSimp_iff.mp hsimp).1⟩) i hi his with
        ⟨rfl, rfl⟩ | ⟨rfl, rfl⟩ | ⟨rfl, rfl⟩ | ⟨rfl, rfl⟩
      · exact key ![2, 2] 8 (by decide +kernel) (by decide +kernel)
      · exact key ![17/6, 17/6] (169/18) (by decide +kernel) (by decide +kernel)
      · exact key ![2, 3] 13 (by decide +kernel) (by decide +kernel)
      · exact key ![3, 2] 13 (by decide +kernel) (by decide +kernel)
    obtain ⟨t, ht, hc⟩ := MergeHyp.exists_cone hgp ⟨_, exTri_vs (twoTri_contains.mpr (Or.inl rfl))⟩ (inCone_iff.mpr hq)
    obtain ⟨i, hi, rfl⟩ := exTri_isDT.complete t ht
    refine ⟨i, hi, ?_⟩
    rw [inCone_iff, coe_toFinset_vs] at hc
    exact hc
  · intro i j hi hj q hq
    have h1 := inCone_iff.mpr ((coe_toFinset_vs (exTri.vs i)).symm ▸ hq.1)
    have h2 := inCone_iff.mpr ((coe_toFinset_vs (exTri.vs j)).symm ▸ hq.2)
    have := inCone_iff.mp (inCone_inter (exTri_vs hi) (exTri_vs hj) h1 h2)
    rw [Finset.coe_inter, coe_toFinset_vs, coe_toFinset_vs] at this
    exact this
  · intro i j hi hj u v hu _ _ _ _ h
    have := (exTri_vs hi).1 (List.mem_toFinset.mpr hu)
    simp only [Finset.mem_insert, Finset.mem_singleton] at this
    omega


/-- The same triangulation with other ids. -/
def exTri' : Tri := triOf 5 [([2, 3, 4], [sINF, sINF, 6]), ([1, 2, 3], [5, sINF, sINF])] []

/-- The cross check accepts it, as the hypotheses of `C56_valid_partial` hold. -/
example : ∃ rep, crossCheck wHash exTri exTri' (lookupOf wHash exTri' [6, 5] ++ lookupOf wHash exTri [1, 2]) [1, 2]
    [[6], [5]] = some rep ∧ rep.valid = true := by
  have hT : ∀ i, exTri.contains i = true → i = 1 ∨ i = 2 := fun i => twoTri_contains.mp
  have hR : ∀ i, exTri'.contains i = true ↔ i = 5 ∨ i = 6 := by
    intro i
    rw [exTri', triOf_contains (by simp)]
    simp only [List.length_cons, List.length_nil]
    omega
  obtain ⟨rep, h1, h2⟩ := C56_valid_partial (hash := wHash) (T := exTri) (R := exTri') (n := 3)
    (map := lookupOf wHash exTri' [6, 5] ++ lookupOf wHash exTri [1, 2]) (mine := [1, 2]) (chunks := [[6], [5]])
    ⟨fun i _ => rfl, fun i hi => by rcases hT i hi with rfl | rfl <;> decide,
      fun i hi => by rcases hT i hi with rfl | rfl <;> decide⟩
    ⟨fun i _ => rfl, fun i hi => by rcases (hR i).mp hi with rfl | rfl <;> decide,
      fun i hi => by rcases (hR i).mp hi with rfl | rfl <;> decide⟩
    twoTri_lists ⟨by decide, fun i => by rw [hR]; simp [or_comm]⟩ List.perm_append_comm
    (fun i j hi hj => by rcases hT i hi with rfl | rfl <;> rcases hT j hj with rfl | rfl <;> decide)
    (fun i j hi hj => by
      rcases (hR i).mp hi with rfl | rfl <;> rcases (hR j).mp hj with rfl | rfl <;> decide)
  refine ⟨rep, h1, h2.mpr ⟨fun vs => ⟨?_, ?_⟩, ?_⟩⟩
  · rintro ⟨t, ht, rfl⟩
    rcases hT t ht with rfl | rfl
    · exact ⟨6, (hR 6).mpr (Or.inr rfl), by decide⟩
    · exact ⟨5, (hR 5).mpr (Or.inl rfl), by decide⟩
  · rintro ⟨r, hr, rfl⟩
    rcases (hR r).mp hr with rfl | rfl
    · exact ⟨2, twoTri_contains.mpr (Or.inr rfl), by decide⟩
    · exact ⟨1, twoTri_contains.mpr (Or.inl rfl), by decide⟩
  · intro t r ht hr
    rcases hT t ht with rfl | rfl <;> rcases (hR r).mp hr with rfl | rfl <;> decide

end DC
end Verif
