import Verif.Model.Verify
import Verif.Props.DivideConquer

/-!
# C56: comparison with a reference triangulation
-/
namespace Verif
namespace DC

/-- Assumptions on a stored triangulation that is compared: ids are the positions, the neighbour ids have
storage, and all simplices have `n` vertices. -/
structure Tri.Stored (T : Tri) (n : Nat) : Prop where
  id : ∀ i, T.contains i = true → T.id i = i
  ns : ∀ i, T.contains i = true → ∀ m ∈ T.ns i, m ≠ sINF → m ∈ T.range ∧ (T.vs m).length = n
  len : ∀ i, T.contains i = true → (T.vs i).length = n

/-- `l` enumerates the valid simplices of `T`. -/
def Tri.Lists (T : Tri) (l : List Nat) : Prop := l.Nodup ∧ ∀ i, i ∈ l ↔ T.contains i = true

/-- `map` contains the entries of the simplices of both triangulations, in any order. -/
def LookupOk (hash : Nat → BitVec 32) (T R : Tri) (map : List (BitVec 32 × Nat)) (mine real : List Nat) : Prop :=
  map.Perm (lookupOf hash T mine ++ lookupOf hash R real)

section
variable {hash : Nat → BitVec 32} {T R O : Tri} {map : List (BitVec 32 × Nat)} {mine : List Nat}
  {chunks : List (List Nat)} {n : Nat}

theorem Tri.Stored.ne_inf (hT : T.Stored n) {i : Nat} (hi : T.contains i = true) : i ≠ sINF := by
  rw [← hT.id i hi]
  exact (Tri.contains_iff.mp hi).2

theorem mem_eqRange {k : BitVec 32} {i : Nat} : i ∈ eqRange map k ↔ (k, i) ∈ map := by
  simp only [eqRange, List.mem_map, List.mem_filter, decide_eq_true_eq]
  constructor
  · rintro ⟨⟨a, b⟩, ⟨h1, rfl⟩, rfl⟩; exact h1
  · intro h; exact ⟨(k, i), ⟨h, rfl⟩, rfl⟩

/-- The search finds a simplex with the given vertices if there is one. -/
theorem findSimplex_spec (hO : O.Stored n) {vs : List Nat} (hl : vs.length = n)
    (hmap : ∀ i, O.contains i = true → (fpOf hash (O.vs i), i) ∈ map) :
    (∀ m, findSimplex hash O map vs = some m → O.contains m = true ∧ O.vs m = vs) ∧
    (findSimplex hash O map vs = none → ∀ m, O.contains m = true → O.vs m ≠ vs) := by
  unfold findSimplex
  constructor
  · intro m hm
    have := List.find?_some hm
    simp only [Bool.and_eq_true, decide_eq_true_eq] at this
    obtain ⟨⟨_, h2⟩, h3⟩ := this
    exact ⟨h2, (equalVs_iff (by rw [hO.len m h2, hl])).mp h3⟩
  · intro hn m hm he
    rw [List.find?_eq_none] at hn
    refine hn m (mem_eqRange.mpr (he ▸ hmap m hm)) ?_
    simp only [Bool.and_eq_true, decide_eq_true_eq]
    exact ⟨⟨hO.ne_inf hm, hm⟩, (equalVs_iff (by rw [he])).mpr he⟩

theorem nbFound_spec {vs : List Nat} (hl : vs.length = n)
    (l : List Nat) (hr : ∀ m ∈ l, m ≠ sINF → m ∈ T.range ∧ (T.vs m).length = n) :
    ∃ b, nbFound hash T vs l = some b ∧ (b = true ↔ ∃ m ∈ l, m ≠ sINF ∧ T.vs m = vs) := by
  induction l with
  | nil => exact ⟨false, rfl, by simp⟩
  | cons a l ih =>
    obtain ⟨b, h1, h2⟩ := ih fun m hm => hr m (List.mem_cons_of_mem _ hm)
    rw [nbFound]
    by_cases ha : a = sINF
    · rw [if_pos ha]
      refine ⟨b, h1, h2.trans ?_⟩
      simp [ha]
    · rw [if_neg ha, if_pos (hr a (by simp) ha).1]
      have he : equalVs hash (T.vs a) vs = true ↔ T.vs a = vs :=
        equalVs_iff (by rw [(hr a (by simp) ha).2, hl])
      by_cases hv : T.vs a = vs
      · rw [if_pos (he.mpr hv)]
        exact ⟨true, rfl, by simp; exact Or.inl ⟨ha, hv⟩⟩
      · rw [if_neg (fun h => hv (he.mp h))]
        exact ⟨b, h1, h2.trans (by simp [hv])⟩

theorem nbCheck_spec {ms : List Nat} (hr : ∀ m ∈ ms, m ≠ sINF → m ∈ T.range ∧ (T.vs m).length = n) (l : List Nat)
    (hl : ∀ m ∈ l, m ≠ sINF → m ∈ R.range ∧ (R.vs m).length = n) :
    ∃ b, nbCheck hash T R ms l = some b ∧
      (b = true ↔ ∀ k ∈ l, k ≠ sINF → ∃ m ∈ ms, m ≠ sINF ∧ T.vs m = R.vs k) := by
  induction l with
  | nil => exact ⟨true, rfl, by simp⟩
  | cons a l ih =>
    obtain ⟨b, h1, h2⟩ := ih fun m hm => hl m (List.mem_cons_of_mem _ hm)
    rw [nbCheck]
    by_cases ha : a = sINF
    · rw [if_pos ha]
      exact ⟨b, h1, h2.trans (by simp [ha])⟩
    · have har := hl a (by simp) ha
      obtain ⟨f, h3, h4⟩ := nbFound_spec (hash := hash) har.2 ms hr
      rw [if_neg ha, if_pos har.1, h3, h1]
      refine ⟨f && b, rfl, ?_⟩
      rw [Bool.and_eq_true, h2, h4]
      simp [ha]

/-- The neighbours of the real simplex `r` are found among those of my simplex `t`. -/
def NbsFound (T R : Tri) (t r : Nat) : Prop :=
  ∀ k ∈ R.ns r, k ≠ sINF → ∃ m ∈ T.ns t, m ≠ sINF ∧ T.vs m = R.vs k

/-- Result of the loop over a chunk. -/
theorem crossChunk_spec (hT : T.Stored n) (hR : R.Stored n)
    (hmap : ∀ i, T.contains i = true → (fpOf hash (T.vs i), i) ∈ map) (l : List Nat)
    (hl : ∀ r ∈ l, R.contains r = true) (rep : CrossReport) :
    ∃ rep', crossChunk hash T R map l rep = some rep' ∧ rep'.invalid = rep.invalid ∧
      (rep'.valid = true ↔ rep.valid = true ∧ ∀ r ∈ l, ∃ t, findSimplex hash T map (R.vs r) = some t ∧ NbsFound T R t r) ∧
      (∃ m, rep'.missing = rep.missing ++ m ∧
        (∀ r ∈ m, r ∈ l ∧ ∀ t, T.contains t = true → T.vs t ≠ R.vs r) ∧
        (m = [] → ∀ r ∈ l, ∃ t, T.contains t = true ∧ T.vs t = R.vs r)) := by
  induction l generalizing rep with
  | nil => exact ⟨rep, rfl, rfl, by simp, [], by simp⟩
  | cons r l ih =>
    have hr := hl r (by simp)
    have hf := findSimplex_spec hT (hR.len r hr) hmap
    rw [crossChunk]
    cases e : findSimplex hash T map (R.vs r) with
    | none =>
      refine ⟨_, rfl, rfl, ?_, [r], rfl, ?_, by simp⟩
      · simp [e]
      · simpa using hf.2 e
    | some t =>
      obtain ⟨ht, hv⟩ := hf.1 t e
      obtain ⟨b, h1, h2⟩ := nbCheck_spec (hash := hash) (hT.ns t ht) (R.ns r) (hR.ns r hr)
      obtain ⟨rep', h3, h4, h5, m, h6, h7, h8⟩ := ih (fun k hk => hl k (List.mem_cons_of_mem _ hk))
        { rep with valid := rep.valid && b }
      simp only [h1]
      refine ⟨rep', h3, h4, ?_, m, h6, fun k hk => ⟨List.mem_cons_of_mem _ (h7 k hk).1, (h7 k hk).2⟩, ?_⟩
      · rw [h5, Bool.and_eq_true, h2]
        simp only [List.forall_mem_cons, e, Option.some.injEq, exists_eq_left', NbsFound]
        tauto
      · intro hm k hk
        rcases List.mem_cons.mp hk with rfl | hk
        · exact ⟨t, ht, hv⟩
        · exact h8 hm k hk

theorem crossReal_spec (hT : T.Stored n) (hR : R.Stored n)
    (hmap : ∀ i, T.contains i = true → (fpOf hash (T.vs i), i) ∈ map) (cs : List (List Nat))
    (hl : ∀ r ∈ cs.flatten, R.contains r = true) (rep : CrossReport) :
    ∃ rep', crossReal hash T R map cs rep = some rep' ∧ rep'.invalid = rep.invalid ∧
      (rep'.valid = true ↔ rep.valid = true ∧
        ∀ r ∈ cs.flatten, ∃ t, findSimplex hash T map (R.vs r) = some t ∧ NbsFound T R t r) ∧
      (∃ m, rep'.missing = rep.missing ++ m ∧
        (∀ r ∈ m, r ∈ cs.flatten ∧ ∀ t, T.contains t = true → T.vs t ≠ R.vs r) ∧
        (m = [] → ∀ r ∈ cs.flatten, ∃ t, T.contains t = true ∧ T.vs t = R.vs r)) := by
  induction cs generalizing rep with
  | nil => exact ⟨rep, rfl, rfl, by simp, [], by simp⟩
  | cons c cs ih =>
    obtain ⟨r1, h1, h2, h3, m1, h4, h5, h6⟩ := crossChunk_spec hT hR hmap c
      (fun r hr => hl r (by simp [hr])) rep
    obtain ⟨r2, g1, g2, g3, m2, g4, g5, g6⟩ := ih (fun r hr => hl r (by
      rw [List.flatten_cons]; exact List.mem_append_right _ hr)) r1
    rw [crossReal, h1]
    refine ⟨r2, g1, by rw [g2, h2], ?_, m1 ++ m2, by rw [g4, h4, List.append_assoc], ?_, ?_⟩
    · rw [g3, h3]
      simp only [List.flatten_cons, List.mem_append]
      constructor
      · rintro ⟨⟨a, b⟩, c⟩
        exact ⟨a, fun r hr => hr.elim (b r) (c r)⟩
      · rintro ⟨a, b⟩
        exact ⟨⟨a, fun r hr => b r (Or.inl hr)⟩, fun r hr => b r (Or.inr hr)⟩
    · intro r hr
      rcases List.mem_append.mp hr with hr | hr
      · exact ⟨by simp [(h5 r hr).1], (h5 r hr).2⟩
      · refine ⟨?_, (g5 r hr).2⟩
        rw [List.flatten_cons]
        exact List.mem_append_right _ (g5 r hr).1
    · intro hm r hr
      obtain ⟨rfl, rfl⟩ := List.append_eq_nil_iff.mp hm
      rw [List.flatten_cons] at hr
      rcases List.mem_append.mp hr with hr | hr
      · exact h6 rfl r hr
      · exact g6 rfl r hr

theorem crossMine_spec (hT : T.Stored n) (hR : R.Stored n)
    (hmap : ∀ i, R.contains i = true → (fpOf hash (R.vs i), i) ∈ map) (l : List Nat)
    (hl : ∀ r ∈ l, T.contains r = true) (rep : CrossReport) :
    (crossMine hash T R map l rep).missing = rep.missing ∧
    ((crossMine hash T R map l rep).valid = true ↔ rep.valid = true ∧
      ∀ t ∈ l, ∃ r, R.contains r = true ∧ R.vs r = T.vs t) ∧
    ∃ m, (crossMine hash T R map l rep).invalid = rep.invalid ++ m ∧ m.Sublist l ∧
      ∀ t ∈ l, t ∈ m ↔ ∀ r, R.contains r = true → R.vs r ≠ T.vs t := by
  induction l generalizing rep with
  | nil => exact ⟨rfl, by simp [crossMine], [], by simp [crossMine]⟩
  | cons a l ih =>
    have ha := hl a (by simp)
    have hf := findSimplex_spec hR (hT.len a ha) hmap
    rw [crossMine]
    cases e : findSimplex hash R map (T.vs a) with
    | none =>
      have hn := hf.2 e
      obtain ⟨h1, h2, m, h3, h4, h5⟩ := ih (fun k hk => hl k (List.mem_cons_of_mem _ hk))
        { rep with valid := false, invalid := rep.invalid ++ [a] }
      refine ⟨h1, ?_, a :: m, by simp [h3], h4.cons₂ a, ?_⟩
      · simp only [h2, List.forall_mem_cons]
        constructor
        · rintro ⟨h, _⟩; exact absurd h (by simp)
        · rintro ⟨_, ⟨r, hr1, hr2⟩, _⟩; exact absurd hr2 (hn r hr1)
      · intro t ht
        rcases List.mem_cons.mp ht with rfl | ht
        · simp only [List.mem_cons, true_or, true_iff]; exact hn
        · rw [List.mem_cons, h5 t ht]
          constructor
          · rintro (rfl | h)
            · exact hn
            · exact h
          · exact Or.inr
    | some r =>
      obtain ⟨hr, hv⟩ := hf.1 r e
      obtain ⟨h1, h2, m, h3, h4, h5⟩ := ih (fun k hk => hl k (List.mem_cons_of_mem _ hk)) rep
      refine ⟨h1, ?_, m, h3, h4.cons a, ?_⟩
      · rw [h2, List.forall_mem_cons]
        exact ⟨fun h => ⟨h.1, ⟨r, hr, hv⟩, h.2⟩, fun h => ⟨h.1, h.2.2⟩⟩
      · intro t ht
        rcases List.mem_cons.mp ht with rfl | ht
        · by_cases hm : t ∈ l
          · exact h5 t hm
          · constructor
            · intro h; exact absurd (h4.subset h) hm
            · intro h; exact absurd hv (h r hr)
        · exact h5 t ht

theorem LookupOk.mine_mem (hm : LookupOk hash T R map mine chunks.flatten) (hT : T.Stored n) (ht : T.Lists mine)
    {i : Nat} (hi : T.contains i = true) : (fpOf hash (T.vs i), i) ∈ map := by
  rw [hm.mem_iff, List.mem_append]
  exact Or.inl (List.mem_map.mpr ⟨i, (ht.2 i).mpr hi, by rw [hT.id i hi]⟩)

theorem LookupOk.real_mem (hm : LookupOk hash T R map mine chunks.flatten) (hR : R.Stored n)
    (hr : R.Lists chunks.flatten) {i : Nat} (hi : R.contains i = true) : (fpOf hash (R.vs i), i) ∈ map := by
  rw [hm.mem_iff, List.mem_append]
  exact Or.inr (List.mem_map.mpr ⟨i, (hr.2 i).mpr hi, by rw [hR.id i hi]⟩)

/-- **C56 (partial).** For triangulations without duplicates the cross check accepts iff both contain the same
simplices and the neighbours of every reference simplex are neighbours of the corresponding simplex. The
result does not depend on the chunks and the order of the lookup map. Not checked (and so missing here): the
other inclusion of the neighbours, see `C56_neighbors_violated`. -/
theorem C56_valid_partial (hT : T.Stored n) (hR : R.Stored n) (ht : T.Lists mine) (hr : R.Lists chunks.flatten)
    (hm : LookupOk hash T R map mine chunks.flatten)
    (oT : ∀ i j, T.contains i = true → T.contains j = true → T.vs i = T.vs j → i = j)
    (oR : ∀ i j, R.contains i = true → R.contains j = true → R.vs i = R.vs j → i = j) :
    ∃ rep, crossCheck hash T R map mine chunks = some rep ∧
      (rep.valid = true ↔
        (∀ vs, (∃ t, T.contains t = true ∧ T.vs t = vs) ↔ ∃ r, R.contains r = true ∧ R.vs r = vs) ∧
        ∀ t r, T.contains t = true → R.contains r = true → T.vs t = R.vs r →
          ∀ k ∈ R.ns r, k ≠ sINF → ∃ m ∈ T.ns t, m ≠ sINF ∧ T.vs m = R.vs k) := by
  obtain ⟨r1, h1, h2, h3, _⟩ := crossReal_spec hT hR (fun i hi => hm.mine_mem hT ht hi) chunks
    (fun r h => (hr.2 r).mp h) ⟨decide (mine.length = chunks.flatten.length), [], []⟩
  obtain ⟨g1, g2, _⟩ := crossMine_spec hT hR (fun i hi => hm.real_mem hR hr hi) mine
    (fun t h => (ht.2 t).mp h) r1
  refine ⟨_, by rw [crossCheck, h1]; rfl, ?_⟩
  rw [g2, h3]
  simp only [decide_eq_true_eq]
  constructor
  · rintro ⟨⟨_, h5⟩, h6⟩
    refine ⟨fun vs => ⟨?_, ?_⟩, ?_⟩
    · rintro ⟨t, ht1, rfl⟩
      exact h6 t ((ht.2 t).mpr ht1)
    · rintro ⟨r, hr1, rfl⟩
      obtain ⟨t, ht1, _⟩ := h5 r ((hr.2 r).mpr hr1)
      exact ⟨t, (findSimplex_spec hT (hR.len r hr1) fun i hi => hm.mine_mem hT ht hi).1 t ht1⟩
    · intro t r ht1 hr1 he
      obtain ⟨t', ht2, h⟩ := h5 r ((hr.2 r).mpr hr1)
      obtain ⟨ht3, he'⟩ := (findSimplex_spec hT (hR.len r hr1) fun i hi => hm.mine_mem hT ht hi).1 t' ht2
      rw [oT t t' ht1 ht3 (he.trans he'.symm)]
      exact h
  · rintro ⟨h5, h6⟩
    refine ⟨⟨?_, ?_⟩, ?_⟩
    · have e1 : (mine.map T.vs).Nodup := by
        rw [List.nodup_map_iff_inj_on ht.1]
        exact fun i hi j hj => oT i j ((ht.2 i).mp hi) ((ht.2 j).mp hj)
      have e2 : (chunks.flatten.map R.vs).Nodup := by
        rw [List.nodup_map_iff_inj_on hr.1]
        exact fun i hi j hj => oR i j ((hr.2 i).mp hi) ((hr.2 j).mp hj)
      have := ((List.perm_ext_iff_of_nodup e1 e2).mpr fun vs => by
        simp only [List.mem_map, ht.2, hr.2]
        exact h5 vs).length_eq
      rwa [List.length_map, List.length_map] at this
    · intro r hr1
      have hr2 := (hr.2 r).mp hr1
      have hf := findSimplex_spec (hash := hash) hT (hR.len r hr2) fun i hi => hm.mine_mem hT ht hi
      cases e : findSimplex hash T map (R.vs r) with
      | none =>
        obtain ⟨t, ht1, he⟩ := (h5 (R.vs r)).mpr ⟨r, hr2, rfl⟩
        exact absurd he (hf.2 e t ht1)
      | some t =>
        obtain ⟨ht1, he⟩ := hf.1 t e
        exact ⟨t, rfl, h6 t r ht1 hr2 he⟩
    · intro t ht1
      exact (h5 (T.vs t)).mp ⟨t, (ht.2 t).mp ht1, rfl⟩

/-- **C56 (lists, partial).** `invalid` lists exactly the simplices that the reference does not have, each once.
`missing` lists only missing simplices, and is empty only if none is missing; but not all of them are listed,
see `C56_missing_violated`. -/
theorem C56_lists_partial (hT : T.Stored n) (hR : R.Stored n) (ht : T.Lists mine) (hr : R.Lists chunks.flatten)
    (hm : LookupOk hash T R map mine chunks.flatten) :
    ∃ rep, crossCheck hash T R map mine chunks = some rep ∧ rep.invalid.Nodup ∧
      (∀ t, t ∈ rep.invalid ↔ T.contains t = true ∧ ∀ r, R.contains r = true → R.vs r ≠ T.vs t) ∧
      (∀ r ∈ rep.missing, R.contains r = true ∧ ∀ t, T.contains t = true → T.vs t ≠ R.vs r) ∧
      (rep.missing = [] ↔ ∀ r, R.contains r = true → ∃ t, T.contains t = true ∧ T.vs t = R.vs r) ∧
      (rep.valid = true → rep.missing = [] ∧ rep.invalid = []) := by
  obtain ⟨r1, h1, h2, h3, m, h4, h5, h6⟩ := crossReal_spec hT hR (fun i hi => hm.mine_mem hT ht hi) chunks
    (fun r h => (hr.2 r).mp h) ⟨decide (mine.length = chunks.flatten.length), [], []⟩
  obtain ⟨g1, g2, m', g3, g4, g5⟩ := crossMine_spec hT hR (fun i hi => hm.real_mem hR hr hi) mine
    (fun t h => (ht.2 t).mp h) r1
  rw [h2, List.nil_append] at g3
  rw [List.nil_append] at h4
  have k1 : ∀ t, t ∈ m' ↔ T.contains t = true ∧ ∀ r, R.contains r = true → R.vs r ≠ T.vs t := by
    intro t
    constructor
    · intro h
      have := g4.subset h
      exact ⟨(ht.2 t).mp this, (g5 t this).mp h⟩
    · rintro ⟨h, h'⟩
      exact (g5 t ((ht.2 t).mpr h)).mpr h'
  have k2 : m = [] ↔ ∀ r, R.contains r = true → ∃ t, T.contains t = true ∧ T.vs t = R.vs r := by
    constructor
    · intro h r hr1
      exact h6 h r ((hr.2 r).mpr hr1)
    · intro h
      by_contra hne
      obtain ⟨r, hr1⟩ := List.exists_mem_of_ne_nil _ hne
      obtain ⟨hr2, hr3⟩ := h5 r hr1
      obtain ⟨t, ht1, ht2⟩ := h r ((hr.2 r).mp hr2)
      exact hr3 t ht1 ht2
  refine ⟨_, by rw [crossCheck, h1]; rfl, ?_, ?_, ?_, ?_, ?_⟩
  · rw [g3]; exact ht.1.sublist g4
  · intro t; rw [g3]; exact k1 t
  · intro r h
    rw [g1, h4] at h
    exact ⟨(hr.2 r).mp (h5 r h).1, (h5 r h).2⟩
  · rw [g1, h4]; exact k2
  · rw [g2, h3, g1, h4, g3]
    rintro ⟨⟨_, h7⟩, h8⟩
    refine ⟨k2.mpr fun r hr1 => ?_, ?_⟩
    · obtain ⟨t, ht1, _⟩ := h7 r ((hr.2 r).mpr hr1)
      exact ⟨t, (findSimplex_spec hT (hR.len r hr1) fun i hi => hm.mine_mem hT ht hi).1 t ht1⟩
    · by_contra hne
      obtain ⟨t, ht1⟩ := List.exists_mem_of_ne_nil _ hne
      obtain ⟨ht2, ht3⟩ := (k1 t).mp ht1
      obtain ⟨r, hr1, hr2⟩ := h8 t ((ht.2 t).mpr ht2)
      exact ht3 r hr1 hr2
end

/-! ### Negations -/

/-- A vertex hash for the witnesses. -/
def wHash (v : Nat) : BitVec 32 := (rol (toHash v)).getD 0#32

/-- A triangulation with the given simplices and neighbours, numbered from `start`. -/
def triOf (start : Nat) (l : List (List Nat × List Nat)) (hull : List Nat) : Tri where
  range := Finset.Ico start (start + l.length)
  id := fun i => i
  vs := fun i => (l.getD (i - start) ([], [])).1
  ns := fun i => (l.getD (i - start) ([], [])).2
  mks := fun _ => 0
  hull := hull
  mark := 0

theorem triOf_contains {start : Nat} {l : List (List Nat × List Nat)} {hull : List Nat}
    (hs : start + l.length < 2 ^ 64) {i : Nat} :
    (triOf start l hull).contains i = true ↔ start ≤ i ∧ i < start + l.length := by
  rw [Tri.contains_iff]
  simp only [triOf, Finset.mem_Ico, sINF]
  omega

theorem triOf_lists {start : Nat} {l : List (List Nat × List Nat)} {hull : List Nat}
    (hs : start + l.length < 2 ^ 64) : (triOf start l hull).Lists (List.range' start l.length) := by
  refine ⟨List.nodup_range', fun i => ?_⟩
  rw [triOf_contains hs, List.mem_range'_1]

/-- A neighbour entry of the checked triangulation may be wrong: both triangulations consist of the triangles
`1 2 3` and `4 5 6`, which are neighbours in the checked one only. The cross check accepts. -/
theorem C56_neighbors_violated :
    ∃ (T R : Tri) (map : List (BitVec 32 × Nat)) (mine real : List Nat),
      T.Stored 3 ∧ R.Stored 3 ∧ T.Lists mine ∧ R.Lists real ∧ LookupOk wHash T R map mine real ∧
      (∃ t r m, T.contains t = true ∧ R.contains r = true ∧ T.vs t = R.vs r ∧ m ∈ T.ns t ∧ m ≠ sINF ∧
        ∀ k ∈ R.ns r, k ≠ sINF → R.vs k ≠ T.vs m) ∧
      ∃ rep, crossCheck wHash T R map mine [real] = some rep ∧ rep.valid = true := by
  let T := triOf 1 [([1, 2, 3], [2, sINF, sINF]), ([4, 5, 6], [1, sINF, sINF])] []
  let R := triOf 1 [([1, 2, 3], [sINF, sINF, sINF]), ([4, 5, 6], [sINF, sINF, sINF])] []
  have hT : ∀ i, T.contains i = true ↔ 1 ≤ i ∧ i < 3 := fun i => triOf_contains (by decide)
  have hR : ∀ i, R.contains i = true ↔ 1 ≤ i ∧ i < 3 := fun i => triOf_contains (by decide)
  have two : ∀ i, 1 ≤ i ∧ i < 3 → i = 1 ∨ i = 2 := by omega
  refine ⟨T, R, lookupOf wHash T [1, 2] ++ lookupOf wHash R [1, 2], [1, 2], [1, 2], ⟨fun i _ => rfl, ?_, ?_⟩,
    ⟨fun i _ => rfl, ?_, ?_⟩, triOf_lists (by decide), triOf_lists (by decide), List.Perm.refl _,
    ⟨1, 1, 2, (hT 1).mpr (by decide), (hR 1).mpr (by decide), by decide, by decide, by decide, by decide⟩, ?_⟩
  · intro i hi
    rcases two i ((hT i).mp hi) with rfl | rfl <;> decide
  · intro i hi
    rcases two i ((hT i).mp hi) with rfl | rfl <;> decide
  · intro i hi
    rcases two i ((hR i).mp hi) with rfl | rfl <;> decide
  · intro i hi
    rcases two i ((hR i).mp hi) with rfl | rfl <;> decide
  · exact ⟨_, rfl, by decide +kernel⟩

/-- Not all missing simplices are listed: of two missing simplices in one chunk only the first is. -/
theorem C56_missing_violated :
    ∃ (T R : Tri) (map : List (BitVec 32 × Nat)) (mine real : List Nat),
      T.Stored 3 ∧ R.Stored 3 ∧ T.Lists mine ∧ R.Lists real ∧ LookupOk wHash T R map mine real ∧
      (∃ r, R.contains r = true ∧ (∀ t, T.contains t = true → T.vs t ≠ R.vs r) ∧
        ∃ rep, crossCheck wHash T R map mine [real] = some rep ∧ r ∉ rep.missing) := by
  let T := triOf 1 [([1, 2, 3], [sINF, sINF, sINF])] []
  let R := triOf 1 [([1, 2, 4], [2, sINF, sINF]), ([2, 3, 4], [sINF, 1, sINF])] []
  have hT : ∀ i, T.contains i = true ↔ 1 ≤ i ∧ i < 2 := fun i => triOf_contains (by decide)
  have hR : ∀ i, R.contains i = true ↔ 1 ≤ i ∧ i < 3 := fun i => triOf_contains (by decide)
  have two : ∀ i, 1 ≤ i ∧ i < 3 → i = 1 ∨ i = 2 := by omega
  have one : ∀ i, 1 ≤ i ∧ i < 2 → i = 1 := by omega
  refine ⟨T, R, lookupOf wHash T [1] ++ lookupOf wHash R [1, 2], [1], [1, 2], ⟨fun i _ => rfl, ?_, ?_⟩,
    ⟨fun i _ => rfl, ?_, ?_⟩, triOf_lists (by decide), triOf_lists (by decide), List.Perm.refl _,
    ⟨2, (hR 2).mpr (by decide), ?_, ?_⟩⟩
  · intro i hi
    obtain rfl := one i ((hT i).mp hi)
    decide
  · intro i hi
    obtain rfl := one i ((hT i).mp hi)
    decide
  · intro i hi
    rcases two i ((hR i).mp hi) with rfl | rfl <;> decide
  · intro i hi
    rcases two i ((hR i).mp hi) with rfl | rfl <;> decide
  · intro i hi
    obtain rfl := one i ((hT i).mp hi)
    decide
  · exact ⟨_, rfl, by decide +kernel⟩

/-! ### Two Delaunay triangulations -/

section
variable {K W : Type} [Field K] [LinearOrder K] [IsStrictOrderedRing K] [AddCommGroup W] [Module K W]
  [Module.Finite K W]
variable {D : Nat} {x : Nat → W} {h : Nat → K} {S : Finset Nat}
variable {hash : Nat → BitVec 32} {T R : Tri} {map : List (BitVec 32 × Nat)} {mine : List Nat}
  {chunks : List (List Nat)}

theorem IsDT.stored (hT : IsDT D x h S T) (hdim : Module.finrank K W = D + 1) : T.Stored (D + 1) where
  id := hT.id
  ns := fun i hi m hm hf => by
    have := hT.wf.ns i hi m hm hf
    exact ⟨(Tri.contains_iff.mp this).1, hT.len hdim this⟩
  len := fun _ hi => hT.len hdim hi

theorem IsDT.vs_eq (hT : IsDT D x h S T) (hR : IsDT D x h S R) {i j : Nat} (hi : T.contains i = true)
    (hj : R.contains j = true) (he : (T.vs i).toFinset = (R.vs j).toFinset) : T.vs i = R.vs j := by
  have s1 := hT.sorted i hi
  have s2 := hR.sorted j hj
  refine List.Perm.eq_of_pairwise (le := (· < ·)) (fun a b _ _ h1 h2 => absurd h2 (lt_asymm h1)) s1 s2 ?_
  exact (List.perm_ext_iff_of_nodup (hT.nodup hi) (hR.nodup hj)).mpr fun v => by
    rw [← List.mem_toFinset, he, List.mem_toFinset]

/-- **C56 (acceptance).** The Delaunay triangulation is accepted against another representation of the Delaunay
triangulation of the same points, with empty lists, for all ids, orders and chunks. -/
theorem C56_accepts (hdim : Module.finrank K W = D + 1) (hT : IsDT D x h S T) (hR : IsDT D x h S R)
    (ht : T.Lists mine) (hr : R.Lists chunks.flatten) (hm : LookupOk hash T R map mine chunks.flatten) :
    crossCheck hash T R map mine chunks = some ⟨true, [], []⟩ := by
  have sT := hT.stored hdim
  have sR := hR.stored hdim
  obtain ⟨rep, h1, h2⟩ := C56_valid_partial sT sR ht hr hm
    (fun i j hi hj he => hT.unique i j hi hj (by rw [he])) (fun i j hi hj he => hR.unique i j hi hj (by rw [he]))
  obtain ⟨rep', g1, _, _, _, _, g2⟩ := C56_lists_partial sT sR ht hr hm
  rw [h1] at g1
  obtain rfl := Option.some.inj g1
  have hv : rep.valid = true := by
    rw [h2]
    refine ⟨fun vs => ⟨?_, ?_⟩, ?_⟩
    · rintro ⟨t, ht1, rfl⟩
      obtain ⟨r, hr1, he⟩ := hR.complete _ (hT.sound t ht1)
      exact ⟨r, hr1, (hT.vs_eq hR ht1 hr1 he.symm).symm⟩
    · rintro ⟨r, hr1, rfl⟩
      obtain ⟨t, ht1, he⟩ := hT.complete _ (hR.sound r hr1)
      exact ⟨t, ht1, hT.vs_eq hR ht1 hr1 he⟩
    · intro t r ht1 hr1 he k hk hf
      obtain ⟨d, hd, e⟩ := mem_getD hk
      rw [hR.nlen r hr1] at hd
      rcases hR.nbr r hr1 d hd with ⟨a1, a2⟩ | ⟨a1, _⟩
      · rw [e] at a1 a2
        rw [← he] at a2
        obtain ⟨j, hj, hje⟩ := hT.complete _ (hR.sound k a1)
        rcases hT.nbr t ht1 d hd with ⟨b1, b2⟩ | ⟨_, b2⟩
        · refine ⟨(T.ns t).getD d 0, getD_mem (by rw [hT.nlen t ht1]; exact hd), ?_, ?_⟩
          · exact hT.ne_inf b1
          · exact hT.vs_eq hR b1 a1 (Del.across_unique (hT.sound t ht1) (hT.sound _ b1) (hR.sound k a1) b2 a2)
        · exact absurd a2 (b2 _ (hR.sound k a1))
      · rw [e] at a1
        exact absurd a1 hf
  obtain ⟨g3, g4⟩ := g2 hv
  rw [h1]
  cases rep
  simp only at hv g3 g4
  rw [hv, g3, g4]

end
end DC
end Verif
