import Verif.Props.WhereUsed
import Verif.Props.Neighbors
import Verif.Props.Partitioner

/-!
# Merging (C49, C50)
-/
namespace Verif
namespace DC
open Work

/-! ### Combining triangulations -/

/-- Lines 368-372 of src/lib/DCTriangulator.cpp. -/
def mergeAll (d0 : Tri) (rest : List Tri) : Tri := rest.foldl (fun m d => m.merge d true) d0

theorem mergeAll_spec : ∀ (rest : List Tri) (d0 : Tri),
    (d0 :: rest).Pairwise (fun a b => Disjoint a.range b.range) →
    (∀ i, i ∈ (mergeAll d0 rest).range ↔ ∃ d ∈ d0 :: rest, i ∈ d.range) ∧
    (∀ d ∈ d0 :: rest, ∀ i ∈ d.range, (mergeAll d0 rest).id i = d.id i ∧ (mergeAll d0 rest).vs i = d.vs i ∧
      (mergeAll d0 rest).ns i = d.ns i ∧ (mergeAll d0 rest).mks i = d.mks i) ∧
    (mergeAll d0 rest).hull = (d0 :: rest).flatMap (·.hull) ∧
    (∀ d ∈ d0 :: rest, d.mark ≤ (mergeAll d0 rest).mark) ∧
    (∃ d ∈ d0 :: rest, (mergeAll d0 rest).mark = d.mark) := by
  intro rest
  induction rest with
  | nil =>
    intro d0 _
    simp [mergeAll]
  | cons d1 r ih =>
    intro d0 hp
    simp only [List.pairwise_cons, List.mem_cons] at hp
    obtain ⟨hp0, hp1, hpr⟩ := hp
    have h01 : Disjoint d0.range d1.range := hp0 d1 (Or.inl rfl)
    obtain ⟨h1, h2, h3, h4, h5⟩ := ih (d0.merge d1 true) (by
      simp only [List.pairwise_cons]
      refine ⟨fun a ha => ?_, hpr⟩
      simp only [Tri.merge, Finset.disjoint_union_left]
      exact ⟨hp0 a (Or.inr ha), hp1 a ha⟩)
    have e : mergeAll d0 (d1 :: r) = mergeAll (d0.merge d1 true) r := rfl
    rw [e]
    refine ⟨fun i => ?_, ?_, ?_, ?_, ?_⟩
    · rw [h1]
      simp only [List.mem_cons, exists_eq_or_imp, Tri.merge, Finset.mem_union]
      tauto
    · have hm := h2 (d0.merge d1 true) (by simp)
      intro d hd i hi
      simp only [List.mem_cons] at hd
      rcases hd with rfl | rfl | hd
      · have := hm i (by simp [Tri.merge, hi])
        simpa [Tri.merge, hi] using this
      · have hn : i ∉ d0.range := fun h => (Finset.disjoint_left.mp h01 h) hi
        have := hm i (by simp [Tri.merge, hi])
        simpa [Tri.merge, hn] using this
      · exact h2 d (by simp [hd]) i hi
    · rw [h3]
      simp [Tri.merge]
    · intro d hd
      have hm := h4 (d0.merge d1 true) (by simp)
      simp only [Tri.merge] at hm
      simp only [List.mem_cons] at hd
      rcases hd with rfl | rfl | hd
      · exact le_trans (le_max_left _ _) hm
      · exact le_trans (le_max_right _ _) hm
      · exact h4 d (by simp [hd])
    · obtain ⟨d, hd, he⟩ := h5
      simp only [List.mem_cons] at hd
      rcases hd with rfl | hd
      · rcases le_total d0.mark d1.mark with h | h
        · exact ⟨d1, by simp, by rw [he]; simp [Tri.merge, h]⟩
        · exact ⟨d0, by simp, by rw [he]; simp [Tri.merge, h]⟩
      · exact ⟨d, by simp [hd], he⟩

/-! ### Searching the deleted simplices -/

theorem mem_search (fp : Nat → BitVec 32) (key : BitVec 32) : ∀ (del : List Nat),
    del.Pairwise (fun a b => fp a ≤ fp b) → ∀ i,
    i ∈ (lowerBound fp del key).takeWhile (fun i => decide (fp i = key)) ↔ i ∈ del ∧ fp i = key := by
  intro del
  induction del with
  | nil => intro _ i; simp [lowerBound]
  | cons a l ih =>
    intro hp i
    simp only [List.pairwise_cons] at hp
    obtain ⟨ha, hl⟩ := hp
    have ih := ih hl i
    unfold lowerBound at ih ⊢
    by_cases h : fp a < key
    · rw [List.dropWhile_cons_of_pos (by simpa using h), ih, List.mem_cons]
      constructor
      · rintro ⟨h1, h2⟩; exact ⟨Or.inr h1, h2⟩
      · rintro ⟨rfl | h1, h2⟩
        · rw [h2] at h
          exact absurd h (by simp [BitVec.lt_def])
        · exact ⟨h1, h2⟩
    · rw [List.dropWhile_cons_of_neg (by simpa using h)]
      -- no later element is smaller than the key
      have hge : ∀ b ∈ l, ¬ fp b < key := by
        intro b hb hlt
        have := ha b hb
        rw [BitVec.lt_def] at h hlt
        rw [BitVec.le_def] at this
        omega
      have hd : l.dropWhile (fun i => decide (fp i < key)) = l := by
        cases l with
        | nil => rfl
        | cons b l => exact List.dropWhile_cons_of_neg (by simpa using hge b (by simp))
      rw [hd] at ih
      by_cases he : fp a = key
      · rw [List.takeWhile_cons_of_pos (by simpa using he), List.mem_cons, ih, List.mem_cons]
        constructor
        · rintro (rfl | ⟨h1, h2⟩)
          · exact ⟨Or.inl rfl, he⟩
          · exact ⟨Or.inr h1, h2⟩
        · rintro ⟨rfl | h1, h2⟩
          · exact Or.inl rfl
          · exact Or.inr ⟨h1, h2⟩
      · rw [List.takeWhile_cons_of_neg (by simpa using he)]
        simp only [List.not_mem_nil, false_iff, not_and, List.mem_cons]
        rintro (rfl | hi) hk
        · exact he hk
        · have := ha i hi
          rw [hk] at this
          have h' : ¬ fp a < key := h
          rw [BitVec.lt_def] at h'
          rw [BitVec.le_def] at this
          exact he (BitVec.eq_of_toNat_eq (by omega))

theorem zip_all_eq : ∀ (a b : List Nat), a.length = b.length →
    ((a.zip b).all (fun p => p.1 == p.2) = true ↔ a = b) := by
  intro a
  induction a with
  | nil => intro b h; cases b <;> simp_all
  | cons x a ih =>
    intro b h
    cases b with
    | nil => simp at h
    | cons y b =>
      simp only [List.length_cons, Nat.add_right_cancel_iff] at h
      simp [ih b h]

theorem equalVs_iff {hash : Nat → BitVec 32} {a b : List Nat} (h : a.length = b.length) :
    equalVs hash a b = true ↔ a = b := by
  unfold equalVs
  split_ifs with hf
  · constructor
    · simp
    · rintro rfl; exact absurd rfl hf
  · exact zip_all_eq a b h

/-- The search finds a deleted simplex with the same vertices iff there is one, whatever collisions of
fingerprints there are. -/
theorem foundDeleted_iff {hash : Nat → BitVec 32} {M : Tri} {del : List Nat} {vs : List Nat}
    (hs : del.Pairwise (fun a b => fpOf hash (M.vs a) ≤ fpOf hash (M.vs b)))
    (hl : ∀ i ∈ del, (M.vs i).length = vs.length) :
    foundDeleted hash M del vs = true ↔ ∃ i ∈ del, M.vs i = vs := by
  unfold foundDeleted
  rw [List.any_eq_true]
  constructor
  · rintro ⟨i, hi, he⟩
    rw [mem_search (fun i => fpOf hash (M.vs i)) _ del hs] at hi
    rw [equalVs_iff (hl i hi.1).symm] at he
    exact ⟨i, hi.1, he.symm⟩
  · rintro ⟨i, hi, rfl⟩
    refine ⟨i, ?_, ?_⟩
    · rw [mem_search (fun i => fpOf hash (M.vs i)) _ del hs]
      exact ⟨hi, rfl⟩
    · rw [equalVs_iff rfl]

/-! ### The merge loop -/

theorem foldl_wu (hash : Nat → BitVec 32) (vs : List Nat) (i : Nat) (l : List Nat) (w : List (BitVec 32 × Nat))
    (p : BitVec 32 × Nat) :
    p ∈ l.foldl (fun w d => (faceKey hash vs d, i) :: w) w ↔ p ∈ w ∨ ∃ d ∈ l, p = (faceKey hash vs d, i) := by
  induction l generalizing w with
  | nil => simp
  | cons a l ih =>
    rw [List.foldl_cons, ih]
    simp only [List.mem_cons, exists_eq_or_imp]
    tauto

theorem mergeLoop_spec {D : Nat} {K : Type} {hash : Nat → BitVec 32} {ps : List (Part.Partition D K)} {M : Tri}
    {del : List Nat} {edge : Tri} : ∀ (order : List Nat) (s st : MergeSt),
    order.foldlM (mergeStep hash ps M del edge) s = some st →
    (∀ i ∈ order, ∃ b, insertEdge hash ps M del (edge.vs i) = some b) ∧
    (∀ i, st.id i = if i ∈ order ∧ insertEdge hash ps M del (edge.vs i) = some false then sINF else s.id i) ∧
    st.ins = s.ins ++ order.filter (fun i => decide (insertEdge hash ps M del (edge.vs i) = some true)) ∧
    st.hull = s.hull ++ order.filter (fun i => decide (insertEdge hash ps M del (edge.vs i) = some true) &&
      !vsFinite D (edge.vs i)) ∧
    (∀ p, p ∈ st.wu ↔ p ∈ s.wu ∨ ∃ i ∈ order, insertEdge hash ps M del (edge.vs i) = some true ∧
      ∃ d < D + 1, p = (faceKey hash (edge.vs i) d, i)) := by
  intro order
  induction order with
  | nil =>
    intro s st h
    simp only [List.foldlM_nil, Option.pure_def, Option.some.injEq] at h
    subst h
    simp
  | cons a l ih =>
    intro s st h
    rw [List.foldlM_cons] at h
    cases hb : insertEdge hash ps M del (edge.vs a) with
    | none => simp [mergeStep, hb] at h
    | some b =>
      simp only [mergeStep, hb, Option.map_some, Option.bind_eq_bind, Option.bind_some] at h
      obtain ⟨h1, h2, h3, h4, h5⟩ := ih _ _ h
      cases b with
      | true =>
        simp only [if_true] at h2 h3 h4 h5
        refine ⟨?_, ?_, ?_, ?_, ?_⟩
        · intro i hi
          rcases List.mem_cons.mp hi with rfl | hi
          · exact ⟨true, hb⟩
          · exact h1 i hi
        · intro i
          rw [h2 i]
          by_cases hia : i = a
          · subst hia; simp [hb]
          · simp [hia]
        · rw [h3]; simp [hb]
        · rw [h4]
          by_cases hv : vsFinite D (edge.vs a) = true <;> simp [hb, hv]
        · intro p
          rw [h5 p, foldl_wu]
          simp only [List.mem_range, List.mem_cons, exists_eq_or_imp, hb, true_and]
          exact or_assoc
      | false =>
        simp only [Bool.false_eq_true, if_false] at h2 h3 h4 h5
        refine ⟨?_, ?_, ?_, ?_, ?_⟩
        · intro i hi
          rcases List.mem_cons.mp hi with rfl | hi
          · exact ⟨false, hb⟩
          · exact h1 i hi
        · intro i
          rw [h2 i]
          by_cases hia : i = a
          · subst hia; simp [hb]
          · simp [hia]
        · rw [h3]; simp [hb]
        · rw [h4]; simp [hb]
        · intro p
          rw [h5 p]
          simp [hb]

/-! ### Insertion test -/

/-- The vertices are contained in one part. -/
def InOnePart {D : Nat} {K : Type} (ps : List (Part.Partition D K)) (vs : List Nat) : Prop :=
  ∃ p ∈ ps, ∀ v ∈ vs, v ∈ p.points

theorem containsVs_iff {D : Nat} {K : Type} (p : Part.Partition D K) (vs : List Nat) :
    p.containsVs false vs = true ↔ ∀ v ∈ vs, v ∈ p.points := by
  induction vs with
  | nil => simp [Part.Partition.containsVs]
  | cons v vs ih =>
    by_cases h : v ∈ p.points
    · simp [Part.Partition.containsVs, Part.Partition.contains, h, ih]
    · simp [Part.Partition.containsVs, Part.Partition.contains, h]

theorem partitionOf_some {D : Nat} {K : Type} {ps : List (Part.Partition D K)} {v k : Nat}
    (h : Part.partitionOf ps v = some k) : ∃ p ∈ ps, v ∈ p.points ∧ p.id = k := by
  induction ps with
  | nil => simp [Part.partitionOf] at h
  | cons p ps ih =>
    simp only [Part.partitionOf, Part.Partition.contains, decide_eq_true_eq] at h
    split_ifs at h with hv
    · cases h; exact ⟨p, by simp, hv, rfl⟩
    · obtain ⟨p', h1, h2, h3⟩ := ih h
      exact ⟨p', by simp [h1], h2, h3⟩

theorem insertEdge_iff {D : Nat} {K : Type} {hash : Nat → BitVec 32} {ps : List (Part.Partition D K)} {M : Tri}
    {del vs : List Nat} {b : Bool} (hid : ∀ (k : Nat) (p : Part.Partition D K), ps[k]? = some p → p.id = k)
    (hone : ∀ v0, vs[0]? = some v0 → ∀ p ∈ ps, ∀ p' ∈ ps, v0 ∈ p.points → v0 ∈ p'.points → p = p')
    (hs : del.Pairwise (fun a b => fpOf hash (M.vs a) ≤ fpOf hash (M.vs b)))
    (hl : ∀ i ∈ del, (M.vs i).length = vs.length)
    (h : insertEdge hash ps M del vs = some b) :
    b = true ↔ ¬ InOnePart ps vs ∨ ∃ i ∈ del, M.vs i = vs := by
  unfold insertEdge at h
  cases hv : vs[0]? with
  | none => simp [hv] at h
  | some v0 =>
    cases hp : Part.partitionOf ps v0 with
    | none => simp [hv, hp] at h
    | some k =>
      cases hk : ps[k]? with
      | none => simp [hv, hp, hk] at h
      | some p =>
        simp only [hv, hp, hk, Option.bind_some, Option.map_some, Option.some.injEq] at h
        obtain ⟨p', h1, h2, h3⟩ := partitionOf_some hp
        have hpm : p ∈ ps := List.mem_of_getElem? hk
        -- p' is p
        have hpp : p = p' := by
          obtain ⟨k', hk', he⟩ := List.mem_iff_getElem.mp h1
          have h4 : ps[k']? = some p' := by rw [List.getElem?_eq_getElem hk', he]
          have h5 := hid k' p' h4
          rw [h3] at h5
          rw [← h5, hk] at h4
          exact Option.some.inj h4
        subst hpp
        have hin : InOnePart ps vs ↔ p.containsVs false vs = true := by
          rw [containsVs_iff]
          constructor
          · rintro ⟨p', hp', hall⟩
            have : v0 ∈ vs := List.mem_of_getElem? hv
            have := hone v0 hv p hpm p' hp' h2 (hall v0 this)
            subst this
            exact hall
          · intro hall; exact ⟨p, hpm, hall⟩
        rw [hin, ← h]
        by_cases hc : p.containsVs false vs = true
        · simp only [hc, Bool.not_true, Bool.false_eq_true, if_false, not_true_eq_false, false_or]
          exact foundDeleted_iff hs hl
        · simp [hc]

/-! ### mergeTriangulation -/

/-- What the merge needs to know about its inputs. -/
structure MergeIn {D : Nat} {K : Type} (ps : List (Part.Partition D K)) (dts : List Tri)
    (edgeSimps : Finset Nat) (edge : Tri) : Prop where
  /-- ids of different triangulations are different (C55) -/
  disj : (edge :: dts).Pairwise (fun a b => Disjoint a.range b.range)
  /-- edge simplices are stored in the partial triangulations -/
  stored : ∀ i ∈ edgeSimps, ∃ T ∈ dts, i ∈ T.range
  /-- their neighbours, too -/
  ns : ∀ T ∈ dts, ∀ i ∈ edgeSimps, i ∈ T.range → ∀ n ∈ T.ns i, n ≠ sINF → n ∈ T.range
  vsLen : ∀ T ∈ dts, ∀ i ∈ edgeSimps, i ∈ T.range → (T.vs i).length = D + 1
  edgeLen : ∀ i, edge.contains i = true → (edge.vs i).length = D + 1
  /-- part ids are positions (C42) -/
  partId : ∀ (k : Nat) (p : Part.Partition D K), ps[k]? = some p → p.id = k
  /-- the first vertex of an edge simplex is in at most one part -/
  one : ∀ i, edge.contains i = true → ∀ v0, (edge.vs i)[0]? = some v0 →
    ∀ p ∈ ps, ∀ p' ∈ ps, v0 ∈ p.points → v0 ∈ p'.points → p = p'
  marks : ∀ T ∈ edge :: dts, T.MarksOk
  mark : ∀ T ∈ edge :: dts, T.mark + 4 < 256

/-- Simplex `i` of the partial triangulation `T` is kept. -/
def Kept (dts : List Tri) (edgeSimps : Finset Nat) (T : Tri) (i : Nat) : Prop :=
  T ∈ dts ∧ T.contains i = true ∧ i ∉ edgeSimps

/-- Simplex `i` of the edge triangulation is inserted: it is not contained in one part or it has the vertices
of a removed simplex. -/
def Inserted {D : Nat} {K : Type} (ps : List (Part.Partition D K)) (dts : List Tri) (edgeSimps : Finset Nat)
    (edge : Tri) (i : Nat) : Prop :=
  edge.contains i = true ∧ (¬ InOnePart ps (edge.vs i) ∨
    ∃ T ∈ dts, ∃ e ∈ edgeSimps, e ∈ T.range ∧ T.vs e = edge.vs i)

/-- State of the merged triangulation before `updateNeighbors`. -/
structure Merged {D : Nat} {K : Type} (hash : Nat → BitVec 32) (ps : List (Part.Partition D K)) (dts : List Tri)
    (edgeSimps : Finset Nat) (edge : Tri) (M : Tri) (ins : List Nat) (wu : List (BitVec 32 × Nat)) : Prop where
  range : ∀ i, i ∈ M.range ↔ ∃ T ∈ edge :: dts, i ∈ T.range
  data : ∀ T ∈ edge :: dts, ∀ i ∈ T.range, M.vs i = T.vs i ∧ M.ns i = T.ns i
  contains : ∀ i, M.contains i = true ↔ (∃ T, Kept dts edgeSimps T i) ∨ Inserted ps dts edgeSimps edge i
  id : ∀ T ∈ edge :: dts, ∀ i ∈ T.range, M.contains i = true → M.id i = T.id i
  ins : ∀ i, i ∈ ins ↔ Inserted ps dts edgeSimps edge i
  hull : ∃ h2 : List Nat, M.hull = (dts.flatMap (·.hull)).filter (fun i => decide (i ∉ edgeSimps)) ++ h2 ∧
    h2.Nodup ∧ ∀ i, i ∈ h2 ↔ Inserted ps dts edgeSimps edge i ∧ vsFinite D (edge.vs i) = false
  wu : ∀ k n, (k, n) ∈ wu ↔
    ((∃ T ∈ dts, n ∈ T.range ∧ FirstLayer T (edgeSimps ∩ T.range) n ∧ n ∉ edgeSimps ∧
        ∃ d < D + 1, k = faceKey hash (T.vs n) d) ∨
      (Inserted ps dts edgeSimps edge n ∧ ∃ d < D + 1, k = faceKey hash (edge.vs n) d))
  marks : M.MarksOk
  mark : ∃ T ∈ edge :: dts, M.mark = T.mark ∨ M.mark = T.mark + 2
  markLe : ∀ T ∈ edge :: dts, T.mark ≤ M.mark

/-- `mergeTriangulation` before the call of `updateNeighbors`. -/
def MergePre {D : Nat} {K : Type} (hash : Nat → BitVec 32) (ps : List (Part.Partition D K))
    (dts : List Tri) (edgeSimps : Finset Nat) (edge M : Tri) (ins : List Nat) (wu : List (BitVec 32 × Nat)) : Prop :=
  ∃ (d0 : Tri) (rest : List Tri) (M1 M2 : Tri) (wu1 : List (BitVec 32 × Nat)) (del order : List Nat)
    (st : MergeSt),
    dts = d0 :: rest ∧
    (rest.foldl (fun m d => m.merge d true) d0).filter edgeSimps = some M1 ∧
    BuildWhereUsed D hash M1 edgeSimps M2 wu1 ∧
    del.Perm edgeSimps.toList ∧
    del.Pairwise (fun a b => fpOf hash (M2.vs a) ≤ fpOf hash (M2.vs b)) ∧
    order.Perm (edge.range.filter fun i => edge.contains i = true).toList ∧
    order.foldlM (mergeStep hash ps M2 del edge) ⟨edge.id, [], [], wu1⟩ = some st ∧
    (let M3 := M2.merge { edge with id := st.id } false
     M = { M3 with hull := M3.hull ++ st.hull } ∧ ins = st.ins ∧ wu = st.wu)

theorem mergeTri_iff {D : Nat} {K : Type} {hash : Nat → BitVec 32} {ps : List (Part.Partition D K)} {dts : List Tri}
    {edgeSimps : Finset Nat} {edge R : Tri} : MergeTri hash ps dts edgeSimps edge R ↔
      ∃ M ins wu, MergePre hash ps dts edgeSimps edge M ins wu ∧ UpdateNeighbors D hash M ins wu R := by
  constructor
  · rintro ⟨d0, rest, M1, M2, wu1, del, order, st, h1, h2, h3, h4, h5, h6, h7, hup⟩
    exact ⟨_, _, _, ⟨d0, rest, M1, M2, wu1, del, order, st, h1, h2, h3, h4, h5, h6, h7, rfl, rfl, rfl⟩, hup⟩
  · rintro ⟨_, _, _, ⟨d0, rest, M1, M2, wu1, del, order, st, h1, h2, h3, h4, h5, h6, h7, rfl, rfl, rfl⟩, hup⟩
    exact ⟨d0, rest, M1, M2, wu1, del, order, st, h1, h2, h3, h4, h5, h6, h7, hup⟩

theorem MergePre.merged {D : Nat} {K : Type} {hash : Nat → BitVec 32} {ps : List (Part.Partition D K)}
    {dts : List Tri} {edgeSimps : Finset Nat} {edge M : Tri} {ins : List Nat} {wu : List (BitVec 32 × Nat)}
    (hin : MergeIn ps dts edgeSimps edge) (h : MergePre hash ps dts edgeSimps edge M ins wu) :
    Merged hash ps dts edgeSimps edge M ins wu := by
  obtain ⟨d0, rest, M1, M2, wu1, del, order, st, rfl, hfil, hbw, hdel, hsort, hord, hloop, rfl, rfl, rfl⟩ := h
  obtain ⟨hdE, hdD⟩ := List.pairwise_cons.mp hin.disj
  obtain ⟨a1, a2, a3, a4, a5⟩ := mergeAll_spec rest d0 hdD
  change (mergeAll d0 rest).filter edgeSimps = some M1 at hfil
  set M0 := mergeAll d0 rest with hM0
  -- filter
  unfold Tri.filter at hfil
  split_ifs at hfil with hsub
  simp only [Option.some.injEq] at hfil
  have f1 : M1.range = M0.range := by rw [← hfil]
  have f2 : M1.vs = M0.vs := by rw [← hfil]
  have f3 : M1.ns = M0.ns := by rw [← hfil]
  have f4 : M1.mks = M0.mks := by rw [← hfil]
  have f5 : M1.mark = M0.mark := by rw [← hfil]
  have f6 : ∀ i, M1.id i = if i ∈ edgeSimps then sINF else M0.id i := by intro i; rw [← hfil]
  have f7 : M1.hull = M0.hull.filter (fun i => decide (i ∉ edgeSimps)) := by rw [← hfil]
  have hm0 : M0.mark + 4 < 256 := by
    obtain ⟨d, hd, e⟩ := a5
    rw [e]
    exact hin.mark d (List.mem_cons_of_mem _ hd)
  have hok1 : M1.MarksOk := by
    intro x hx
    rw [f1, a1] at hx
    obtain ⟨d, hd, hx⟩ := hx
    rw [f4, f5, (a2 d hd x hx).2.2.2]
    exact le_trans (hin.marks d (List.mem_cons_of_mem _ hd) x hx) (a4 d hd)
  have hns1 : ∀ e ∈ edgeSimps, ∀ n ∈ M1.ns e, n ≠ sINF → n ∈ M1.range := by
    intro e he n hn hf
    obtain ⟨T, hT, heT⟩ := hin.stored e he
    rw [f3, (a2 T hT e heT).2.2.1] at hn
    rw [f1, a1]
    exact ⟨T, hT, hin.ns T hT e he heT n hn hf⟩
  have hwu1 := C48_buildWhereUsed D hash M1 M2 edgeSimps wu1 (by omega) (by rw [f1]; exact hsub) hok1 hns1 hbw
  have hok2 := C47_buildWhereUsed_partial D hash M1 M2 edgeSimps wu1 hok1 (by omega) hbw
  obtain ⟨mks, hM2, -⟩ := buildWhereUsed_marks hbw
  have g1 : M2.range = M0.range := by rw [hM2, ← f1]
  have g2 : M2.vs = M0.vs := by rw [hM2, ← f2]
  have g3 : M2.ns = M0.ns := by rw [hM2, ← f3]
  have g4 : M2.id = M1.id := by rw [hM2]
  have g5 : M2.hull = M1.hull := by rw [hM2]
  have g6 : M2.mark = M0.mark + 2 := by rw [hok2.2.1, f5]
  clear hM2
  -- merge loop
  obtain ⟨l1, l2, l3, l4, l5⟩ := mergeLoop_spec order _ _ hloop
  have hmo : ∀ i, i ∈ order ↔ edge.contains i = true := by
    intro i
    rw [hord.mem_iff]
    simp only [Finset.mem_toList, Finset.mem_filter, and_iff_right_iff_imp]
    intro h
    exact (Tri.contains_iff.mp h).1
  have hmd : ∀ i, i ∈ del ↔ i ∈ edgeSimps := by
    intro i; rw [hdel.mem_iff, Finset.mem_toList]
  have hins : ∀ i, edge.contains i = true → ∀ b, insertEdge hash ps M2 del (edge.vs i) = some b →
      (b = true ↔ Inserted ps (d0 :: rest) edgeSimps edge i) := by
    intro i hi b hb
    rw [insertEdge_iff hin.partId (hin.one i hi) hsort ?_ hb]
    · unfold Inserted
      simp only [hi, true_and]
      refine or_congr Iff.rfl ?_
      constructor
      · rintro ⟨e, he, hv⟩
        rw [hmd] at he
        obtain ⟨T, hT, heT⟩ := hin.stored e he
        rw [g2, (a2 T hT e heT).2.1] at hv
        exact ⟨T, hT, e, he, heT, hv⟩
      · rintro ⟨T, hT, e, he, heT, hv⟩
        exact ⟨e, (hmd e).mpr he, by rw [g2, (a2 T hT e heT).2.1]; exact hv⟩
    · intro e he
      rw [hmd] at he
      obtain ⟨T, hT, heT⟩ := hin.stored e he
      rw [g2, (a2 T hT e heT).2.1, hin.vsLen T hT e he heT, hin.edgeLen i hi]
  have hinsT : ∀ i, (i ∈ order ∧ insertEdge hash ps M2 del (edge.vs i) = some true) ↔
      Inserted ps (d0 :: rest) edgeSimps edge i := by
    intro i
    constructor
    · rintro ⟨h1, h2⟩
      exact (hins i ((hmo i).mp h1) true h2).mp rfl
    · intro h
      have hc := h.1
      obtain ⟨b, hb⟩ := l1 i ((hmo i).mpr hc)
      have := (hins i hc b hb).mpr h
      subst this
      exact ⟨(hmo i).mpr hc, hb⟩
  have hnotboth : ∀ i, i ∈ edge.range → ∀ T ∈ d0 :: rest, i ∉ T.range := by
    intro i hi T hT h
    exact Finset.disjoint_left.mp (hdE T hT) hi h
  have hM0r : ∀ i, i ∈ edge.range → i ∉ M0.range := by
    intro i hi h
    rw [a1] at h
    obtain ⟨T, hT, h⟩ := h
    exact hnotboth i hi T hT h
  have hidE : ∀ i, i ∈ edge.range → (st.id i ≠ sINF ↔ Inserted ps (d0 :: rest) edgeSimps edge i) := by
    intro i hi
    rw [l2 i]
    by_cases hc : edge.contains i = true
    · obtain ⟨b, hb⟩ := l1 i ((hmo i).mpr hc)
      have := hins i hc b hb
      cases b with
      | true => simpa [hb, (Tri.contains_iff.mp hc).2] using this
      | false => simpa [hb, (hmo i).mpr hc] using this
    · have hn : i ∉ order := fun h => hc ((hmo i).mp h)
      have h2 : edge.id i = sINF := by
        by_contra h2
        exact hc (Tri.contains_iff.mpr ⟨hi, h2⟩)
      simp only [hn, false_and, if_false, h2]
      constructor
      · intro h; exact absurd rfl h
      · intro h; exact absurd h.1 hc
  have hcont : ∀ i, ((M2.merge { edge with id := st.id } false).contains i = true) ↔
      (∃ T, Kept (d0 :: rest) edgeSimps T i) ∨ Inserted ps (d0 :: rest) edgeSimps edge i := by
    intro i
    rw [Tri.contains_iff]
    simp only [Tri.merge, Finset.mem_union, g1]
    by_cases hi : i ∈ M0.range
    · have hnE : i ∉ edge.range := fun h => hM0r i h hi
      have hnI : ¬ Inserted ps (d0 :: rest) edgeSimps edge i := fun h => hnE (Tri.contains_iff.mp h.1).1
      simp only [hi, hnE, or_false, if_true, true_and, hnI]
      obtain ⟨T, hT, hiT⟩ := (a1 i).mp hi
      rw [g4, f6, (a2 T hT i hiT).1]
      constructor
      · intro h
        by_cases he : i ∈ edgeSimps
        · simp [he] at h
        · rw [if_neg he] at h
          exact ⟨T, hT, Tri.contains_iff.mpr ⟨hiT, h⟩, he⟩
      · rintro ⟨T', hT', hc, he⟩
        rw [if_neg he]
        have hc := Tri.contains_iff.mp hc
        rw [← (a2 T hT i hiT).1, (a2 T' hT' i hc.1).1]
        exact hc.2
    · have hnK : ¬ ∃ T, Kept (d0 :: rest) edgeSimps T i := by
        rintro ⟨T, hT, hc, _⟩
        exact hi ((a1 i).mpr ⟨T, hT, (Tri.contains_iff.mp hc).1⟩)
      simp only [hi, false_or, if_false, hnK]
      constructor
      · rintro ⟨h1, h2⟩; exact (hidE i h1).mp h2
      · intro h
        have h1 := (Tri.contains_iff.mp h.1).1
        exact ⟨h1, (hidE i h1).mpr h⟩
  refine
    { range := ?_, data := ?_, contains := hcont, id := ?_, ins := ?_, hull := ?_, wu := ?_, marks := ?_
      mark := ?_, markLe := ?_ }
  · intro i
    simp only [Tri.merge, Finset.mem_union, g1, a1]
    constructor
    · rintro (⟨T, hT, h⟩ | h)
      · exact ⟨T, List.mem_cons_of_mem _ hT, h⟩
      · exact ⟨edge, List.mem_cons_self, h⟩
    · rintro ⟨T, hT, h⟩
      rcases List.mem_cons.mp hT with rfl | hT
      · exact Or.inr h
      · exact Or.inl ⟨T, hT, h⟩
  · intro T hT i hi
    rcases List.mem_cons.mp hT with rfl | hT
    · simp [Tri.merge, g1, hM0r i hi]
    · have : i ∈ M0.range := (a1 i).mpr ⟨T, hT, hi⟩
      simp only [Tri.merge, g1, this, if_true, g2, g3]
      exact ⟨(a2 T hT i hi).2.1, (a2 T hT i hi).2.2.1⟩
  · intro T hT i hi hc
    rcases List.mem_cons.mp hT with rfl | hT
    · simp only [Tri.merge, g1, hM0r i hi, if_false]
      have hI : Inserted ps (d0 :: rest) edgeSimps T i := by
        rcases (hcont i).mp hc with ⟨T', hT', hc', _⟩ | h
        · exact absurd ((a1 i).mpr ⟨T', hT', (Tri.contains_iff.mp hc').1⟩) (hM0r i hi)
        · exact h
      have := (hinsT i).mpr hI
      rw [l2 i, this.2]
      simp
    · have hm : i ∈ M0.range := (a1 i).mpr ⟨T, hT, hi⟩
      have hK : ∃ T, Kept (d0 :: rest) edgeSimps T i := by
        rcases (hcont i).mp hc with h | h
        · exact h
        · exact absurd hm (hM0r i (Tri.contains_iff.mp h.1).1)
      obtain ⟨_, _, _, he⟩ := hK
      simp only [Tri.merge, g1, hm, if_true, g4, f6, he, if_false]
      exact (a2 T hT i hi).1
  · intro i
    rw [l3]
    simp only [List.nil_append, List.mem_filter, decide_eq_true_eq]
    exact hinsT i
  · refine ⟨st.hull, ?_, ?_, ?_⟩
    · simp only [Tri.merge, Bool.false_eq_true, if_false, g5, f7, a3]
    · rw [l4]
      simp only [List.nil_append]
      refine List.Nodup.filter _ ?_
      rw [hord.nodup_iff]
      exact Finset.nodup_toList _
    · intro i
      rw [l4]
      simp only [List.nil_append, List.mem_filter, Bool.and_eq_true, decide_eq_true_eq, Bool.not_eq_true']
      rw [← and_assoc, hinsT i]
  · intro k n
    rw [l5, hwu1]
    refine or_congr ?_ ?_
    · constructor
      · rintro ⟨⟨h1, h2, e, he, hn⟩, d, hd, hk⟩
        obtain ⟨T, hT, heT⟩ := hin.stored e he
        rw [f3, (a2 T hT e heT).2.2.1] at hn
        have hnT := hin.ns T hT e he heT n hn h1
        rw [f2, (a2 T hT n hnT).2.1] at hk
        exact ⟨T, hT, hnT, ⟨h1, by simp [h2], e, by simp [he, heT], hn⟩, h2, d, hd, hk⟩
      · rintro ⟨T, hT, hnT, ⟨h1, _, e, he, hn⟩, h2, d, hd, hk⟩
        simp only [Finset.mem_inter] at he
        refine ⟨⟨h1, h2, e, he.1, ?_⟩, d, hd, ?_⟩
        · rw [f3, (a2 T hT e he.2).2.2.1]; exact hn
        · rw [f2, (a2 T hT n hnT).2.1]; exact hk
    · constructor
      · rintro ⟨i, hi, hb, d, hd, hp⟩
        cases hp
        exact ⟨(hinsT n).mp ⟨hi, hb⟩, d, hd, rfl⟩
      · rintro ⟨hI, d, hd, hk⟩
        have := (hinsT n).mpr hI
        exact ⟨n, this.1, this.2, d, hd, by rw [hk]⟩
  · intro x hx
    simp only [Tri.merge, Finset.mem_union] at hx ⊢
    split_ifs with hm
    · exact le_trans (hok2.1 x hm) (le_max_left _ _)
    · exact le_trans (hin.marks edge (by simp) x (by tauto)) (le_max_right _ _)
  · obtain ⟨d, hd, e⟩ := a5
    simp only [Tri.merge, g6]
    rcases le_total (M0.mark + 2) edge.mark with h | h
    · exact ⟨edge, by simp, Or.inl (by simp [h])⟩
    · exact ⟨d, List.mem_cons_of_mem _ hd, Or.inr (by rw [← e]; simp [h])⟩
  · intro T hT
    simp only [Tri.merge, g6]
    rcases List.mem_cons.mp hT with rfl | hT
    · exact le_max_right _ _
    · have := a4 T hT
      exact le_trans (by omega) (le_max_left _ _)

theorem merged {D : Nat} {K : Type} {hash : Nat → BitVec 32} {ps : List (Part.Partition D K)} {dts : List Tri}
    {edgeSimps : Finset Nat} {edge R : Tri} (hin : MergeIn ps dts edgeSimps edge)
    (h : MergeTri hash ps dts edgeSimps edge R) :
    ∃ M ins wu, Merged hash ps dts edgeSimps edge M ins wu ∧ UpdateNeighbors D hash M ins wu R := by
  obtain ⟨M, ins, wu, hp, hu⟩ := mergeTri_iff.mp h
  exact ⟨M, ins, wu, hp.merged hin, hu⟩

/-- **C49**: the valid simplices of the result are exactly the simplices of the partial triangulations that are
not in the edge, and the simplices of the edge triangulation that are not contained in one part or have the
vertices of a removed simplex; with the vertices they had. -/
theorem C49_mergeTriangulation {D : Nat} {K : Type} (hash : Nat → BitVec 32) (ps : List (Part.Partition D K))
    (dts : List Tri) (edgeSimps : Finset Nat) (edge R : Tri) (hin : MergeIn ps dts edgeSimps edge)
    (h : MergeTri hash ps dts edgeSimps edge R) :
    (∀ i, R.contains i = true ↔
      (∃ T ∈ dts, T.contains i = true ∧ i ∉ edgeSimps) ∨
      (edge.contains i = true ∧ ((¬ ∃ p ∈ ps, ∀ v ∈ edge.vs i, v ∈ p.points) ∨
        ∃ T ∈ dts, ∃ e ∈ edgeSimps, e ∈ T.range ∧ T.vs e = edge.vs i))) ∧
    (∀ T ∈ edge :: dts, ∀ i ∈ T.range, R.vs i = T.vs i ∧ (R.contains i = true → R.id i = T.id i)) ∧
    (∀ i, i ∈ R.range ↔ ∃ T ∈ edge :: dts, i ∈ T.range) := by
  obtain ⟨M, ins, wu, hM, get, ns, mks, _, _, rfl⟩ := merged hin h
  refine ⟨hM.contains, fun T hT i hi => ⟨(hM.data T hT i hi).1, hM.id T hT i hi⟩, hM.range⟩

/-- The convex hull list is exact: it lists the valid simplices with an infinite vertex. -/
def Tri.HullOk (D : Nat) (T : Tri) : Prop :=
  T.hull.Nodup ∧ ∀ i, i ∈ T.hull ↔ T.contains i = true ∧ vsFinite D (T.vs i) = false

/-- **C50**: merging keeps the convex hull list exact. -/
theorem C50_hull {D : Nat} {K : Type} (hash : Nat → BitVec 32) (ps : List (Part.Partition D K))
    (dts : List Tri) (edgeSimps : Finset Nat) (edge R : Tri) (hin : MergeIn ps dts edgeSimps edge)
    (hh : ∀ T ∈ dts, T.HullOk D) (h : MergeTri hash ps dts edgeSimps edge R) : R.HullOk D := by
  obtain ⟨M, ins, wu, hM, get, ns, mks, _, _, rfl⟩ := merged hin h
  obtain ⟨hdE, hdD⟩ := List.pairwise_cons.mp hin.disj
  obtain ⟨h2, e, hnd, hm⟩ := hM.hull
  have hvE : ∀ i, Inserted ps dts edgeSimps edge i → M.vs i = edge.vs i := fun i hi =>
    (hM.data edge List.mem_cons_self i (Tri.contains_iff.mp hi.1).1).1
  have hmem : ∀ i, i ∈ (dts.flatMap (·.hull)).filter (fun i => decide (i ∉ edgeSimps)) ↔
      (∃ T, Kept dts edgeSimps T i) ∧ vsFinite D (M.vs i) = false := by
    intro i
    simp only [List.mem_filter, List.mem_flatMap, decide_eq_true_eq]
    constructor
    · rintro ⟨⟨T, hT, hi⟩, hn⟩
      obtain ⟨hc, hf⟩ := ((hh T hT).2 i).mp hi
      refine ⟨⟨T, hT, hc, hn⟩, ?_⟩
      rw [(hM.data T (List.mem_cons_of_mem _ hT) i (Tri.contains_iff.mp hc).1).1]
      exact hf
    · rintro ⟨⟨T, hT, hc, hn⟩, hf⟩
      rw [(hM.data T (List.mem_cons_of_mem _ hT) i (Tri.contains_iff.mp hc).1).1] at hf
      exact ⟨⟨T, hT, ((hh T hT).2 i).mpr ⟨hc, hf⟩⟩, hn⟩
  refine ⟨?_, ?_⟩
  · change M.hull.Nodup
    rw [e, List.nodup_append]
    refine ⟨List.Nodup.filter _ ?_, hnd, ?_⟩
    · rw [List.nodup_flatMap]
      refine ⟨fun T hT => (hh T hT).1, ?_⟩
      refine List.Pairwise.imp_of_mem ?_ hdD
      intro T T' hT hT' hd i hi hi'
      exact Finset.disjoint_left.mp hd (Tri.contains_iff.mp (((hh T hT).2 i).mp hi).1).1
        (Tri.contains_iff.mp (((hh T' hT').2 i).mp hi').1).1
    · rintro i hi j hj rfl
      obtain ⟨⟨T, hT, hc, _⟩, _⟩ := (hmem i).mp hi
      exact Finset.disjoint_left.mp (hdE T hT) (Tri.contains_iff.mp ((hm i).mp hj).1.1).1
        (Tri.contains_iff.mp hc).1
  · intro i
    change i ∈ M.hull ↔ M.contains i = true ∧ vsFinite D (M.vs i) = false
    rw [e, List.mem_append, hmem, hm, hM.contains]
    constructor
    · rintro (⟨h1, h2⟩ | ⟨h1, h2⟩)
      · exact ⟨Or.inl h1, h2⟩
      · exact ⟨Or.inr h1, by rw [hvE i h1]; exact h2⟩
    · rintro ⟨h1 | h1, h2⟩
      · exact Or.inl ⟨h1, h2⟩
      · exact Or.inr ⟨h1, by rw [← hvE i h1]; exact h2⟩

/-- The marks of the merged triangulation are consistent; one merge adds at most four marks. -/
theorem mergeTri_marks {D : Nat} {K : Type} {hash : Nat → BitVec 32} {ps : List (Part.Partition D K)}
    {dts : List Tri} {edgeSimps : Finset Nat} {edge R : Tri} (hin : MergeIn ps dts edgeSimps edge)
    (h : MergeTri hash ps dts edgeSimps edge R) :
    R.MarksOk ∧ ∃ T ∈ edge :: dts, R.mark ≤ T.mark + 4 := by
  obtain ⟨M, ins, wu, hM, hu⟩ := merged hin h
  obtain ⟨T, hT, hmk⟩ := hM.mark
  have := hin.mark T hT
  obtain ⟨h1, h2, _⟩ := C47_updateNeighbors_partial D hash M R ins wu hM.marks (by omega) hu
  exact ⟨h1, T, hT, by omega⟩

/-! ### existence of a result -/

theorem buildWhereUsed_exists (D : Nat) (hash : Nat → BitVec 32) (T : Tri) (edge : Finset Nat)
    (hmark : T.mark + 2 < 256) (he : edge ⊆ T.range) (hm : T.MarksOk)
    (hn : ∀ e ∈ edge, ∀ n ∈ T.ns e, n ≠ sINF → n ∈ T.range) : ∃ T' wu, BuildWhereUsed D hash T edge T' wu := by
  obtain ⟨⟨⟨mks, wu⟩, Q, A⟩, hr, hq, ha⟩ := Work.exists_terminal (P := wuProg D hash T edge) _
    Nat.lt_wfRel.wf (Wu.measure D T) (fun c c' h => Wu.measure_step h) ⟨⟨T.mks, []⟩, edge.val, 0⟩
    (fun c' h => (C48_buildWhereUsed_defined D hash T edge hmark he hm hn c' h).1)
  simp only at hq ha
  subst hq ha
  exact ⟨_, wu, mks, hr, rfl⟩

theorem updateNeighbors_exists (D : Nat) (hash : Nat → BitVec 32) (T : Tri)
    (toCheck : List Nat) (wu : List (BitVec 32 × Nat))
    (hlen : ∀ x, (T.contains x = true ∨ x ∈ toCheck) → (T.ns x).length = D + 1)
    (hmark : T.mark + 2 < 256) (hm : T.MarksOk) (htc : ∀ x ∈ toCheck, x ∈ T.range) :
    ∃ T', UpdateNeighbors D hash T toCheck wu T' := by
  let get : BitVec 32 → List Nat := fun k => (wu.filter fun p => decide (p.1 = k)).map Prod.snd
  have hlen' : ∀ x, Proc D hash T get toCheck x → (T.ns x).length = D + 1 := by
    intro x hx
    cases hx with
    | start x hx => exact hlen x (Or.inr hx)
    | next x e c hx he hb ho => exact hlen _ (Or.inl (accept_iff.mp ho.2).2.2.1)
  obtain ⟨⟨⟨ns, mks⟩, Q, A⟩, hr, hq, ha⟩ := Work.exists_terminal (P := nbProg D hash T get) _
    (Prod.lex Nat.lt_wfRel Nat.lt_wfRel).wf (Nb.measure D hash T get (nextMark T.mark))
    (fun c c' h => Nb.measure_step hmark h) ⟨⟨T.ns, T.mks⟩, (toCheck : Multiset Nat), 0⟩
    (fun c' h => (C51_updateNeighbors_defined D hash T get toCheck hlen' hmark hm htc c' h).1)
  simp only at hq ha
  subst hq ha
  refine ⟨_, get, ns, mks, ?_, hr, rfl⟩
  intro k c
  simp [get]

/-- **C49** (existence): `mergeTriangulation` has a result, nothing undefined happens. -/
theorem C49_mergeTriangulation_exists {D : Nat} {K : Type} (hash : Nat → BitVec 32)
    (ps : List (Part.Partition D K)) (dts : List Tri) (edgeSimps : Finset Nat) (edge : Tri)
    (hin : MergeIn ps dts edgeSimps edge) (hne : dts ≠ [])
    (hpart : ∀ i, edge.contains i = true → ∃ v0, (edge.vs i)[0]? = some v0 ∧ ∃ p ∈ ps, v0 ∈ p.points)
    (hlen : ∀ T ∈ edge :: dts, ∀ i, T.contains i = true → (T.ns i).length = D + 1) :
    ∃ R, MergeTri hash ps dts edgeSimps edge R := by
  obtain ⟨d0, rest, rfl⟩ := List.exists_cons_of_ne_nil hne
  obtain ⟨hdE, hdD⟩ := List.pairwise_cons.mp hin.disj
  obtain ⟨a1, a2, a3, a4, a5⟩ := mergeAll_spec rest d0 hdD
  have hsub : edgeSimps ⊆ (mergeAll d0 rest).range := by
    intro e he
    rw [a1]
    exact hin.stored e he
  let M1 : Tri := { mergeAll d0 rest with
      id := fun i => if i ∈ edgeSimps then sINF else (mergeAll d0 rest).id i
      hull := (mergeAll d0 rest).hull.filter fun i => decide (i ∉ edgeSimps) }
  have hfil : (mergeAll d0 rest).filter edgeSimps = some M1 := by
    unfold Tri.filter; rw [if_pos hsub]
  have hm1 : M1.mark + 4 < 256 := by
    obtain ⟨d, hd, e⟩ := a5
    change (mergeAll d0 rest).mark + 4 < 256
    rw [e]
    exact hin.mark d (List.mem_cons_of_mem _ hd)
  have hok1 : M1.MarksOk := by
    intro x hx
    obtain ⟨d, hd, hx⟩ := (a1 x).mp hx
    change (mergeAll d0 rest).mks x ≤ (mergeAll d0 rest).mark
    rw [(a2 d hd x hx).2.2.2]
    exact le_trans (hin.marks d (List.mem_cons_of_mem _ hd) x hx) (a4 d hd)
  have hns1 : ∀ e ∈ edgeSimps, ∀ n ∈ M1.ns e, n ≠ sINF → n ∈ M1.range := by
    intro e he n hn hf
    obtain ⟨T, hT, heT⟩ := hin.stored e he
    change n ∈ (mergeAll d0 rest).ns e at hn
    rw [(a2 T hT e heT).2.2.1] at hn
    exact (a1 n).mpr ⟨T, hT, hin.ns T hT e he heT n hn hf⟩
  obtain ⟨M2, wu1, hbw⟩ := buildWhereUsed_exists D hash M1 edgeSimps (by omega) hsub hok1 hns1
  let del := edgeSimps.toList.mergeSort (fun a b => decide (fpOf hash (M2.vs a) ≤ fpOf hash (M2.vs b)))
  have hdel : del.Perm edgeSimps.toList := List.mergeSort_perm _ _
  have hsort : del.Pairwise (fun a b => fpOf hash (M2.vs a) ≤ fpOf hash (M2.vs b)) := by
    have := List.pairwise_mergeSort (le := fun a b => decide (fpOf hash (M2.vs a) ≤ fpOf hash (M2.vs b)))
      (by intro a b c h1 h2; simp only [decide_eq_true_eq] at *; exact BitVec.le_trans h1 h2)
      (by intro a b; simp only [Bool.or_eq_true, decide_eq_true_eq]; exact BitVec.le_total _ _) edgeSimps.toList
    exact this.imp (by intro a b h; simpa using h)
  have hloop : ∀ (l : List Nat) (s : MergeSt), (∀ i ∈ l, edge.contains i = true) →
      ∃ st, l.foldlM (mergeStep hash ps M2 del edge) s = some st := by
    intro l
    induction l with
    | nil => intro s _; exact ⟨s, rfl⟩
    | cons i l ih =>
      intro s hl
      obtain ⟨v0, h0, p, hp, hv⟩ := hpart i (hl i List.mem_cons_self)
      obtain ⟨k, hk⟩ : ∃ k, Part.partitionOf ps v0 = some k := by
        clear hdE hdD hin hpart ih
        induction ps with
        | nil => simp at hp
        | cons q ps ih =>
          by_cases hq : v0 ∈ q.points
          · exact ⟨q.id, by simp [Part.partitionOf, Part.Partition.contains, hq]⟩
          · obtain ⟨k, hk⟩ := ih ((List.mem_cons.mp hp).resolve_left (fun h => hq (h ▸ hv)))
            exact ⟨k, by simp [Part.partitionOf, Part.Partition.contains, hq, hk]⟩
      obtain ⟨p', hp', hv', hid⟩ := partitionOf_some hk
      obtain ⟨m, hm⟩ := List.mem_iff_getElem?.mp hp'
      have hkm := hin.partId m p' hm
      rw [hid] at hkm
      subst hkm
      have hi : ∃ b, insertEdge hash ps M2 del (edge.vs i) = some b := by
        unfold insertEdge
        rw [h0, Option.bind_some, hk, Option.bind_some, hm]
        exact ⟨_, rfl⟩
      obtain ⟨b, hb⟩ := hi
      have hs : ∃ s', mergeStep hash ps M2 del edge s i = some s' := by
        unfold mergeStep
        rw [hb]
        exact ⟨_, rfl⟩
      obtain ⟨s', hs⟩ := hs
      obtain ⟨st, hst⟩ := ih s' (fun j hj => hl j (List.mem_cons_of_mem _ hj))
      exact ⟨st, by rw [List.foldlM_cons, hs]; exact hst⟩
  obtain ⟨st, hst⟩ := hloop (edge.range.filter fun i => edge.contains i = true).toList ⟨edge.id, [], [], wu1⟩
    (by intro i hi; simpa using (Finset.mem_filter.mp (Finset.mem_toList.mp hi)).2)
  have hpre : MergePre hash ps (d0 :: rest) edgeSimps edge _ _ _ :=
    ⟨d0, rest, M1, M2, wu1, del, _, st, rfl, hfil, hbw, hdel, hsort, List.Perm.refl _, hst, rfl, rfl, rfl⟩
  have hM := hpre.merged hin
  generalize { M2.merge { edge with id := st.id } false with
    hull := (M2.merge { edge with id := st.id } false).hull ++ st.hull } = M at hpre hM
  have hcl : ∀ x, M.contains x = true → (M.ns x).length = D + 1 := by
    intro x hx
    rcases (hM.contains x).mp hx with ⟨T, hT, hc, _⟩ | hI
    · rw [(hM.data T (List.mem_cons_of_mem _ hT) x (Tri.contains_iff.mp hc).1).2]
      exact hlen T (List.mem_cons_of_mem _ hT) x hc
    · rw [(hM.data edge List.mem_cons_self x (Tri.contains_iff.mp hI.1).1).2]
      exact hlen edge List.mem_cons_self x hI.1
  have hmk : M.mark + 2 < 256 := by
    obtain ⟨T, hT, h⟩ := hM.mark
    have := hin.mark T hT
    omega
  have htc : ∀ x ∈ st.ins, M.contains x = true := fun x hx => (hM.contains x).mpr (Or.inr ((hM.ins x).mp hx))
  obtain ⟨R, hR⟩ := updateNeighbors_exists D hash M st.ins st.wu
    (fun x hx => hcl x (hx.elim id (htc x))) hmk hM.marks (fun x hx => (Tri.contains_iff.mp (htc x hx)).1)
  exact ⟨R, mergeTri_iff.mpr ⟨M, _, _, hpre, hR⟩⟩

/-! ### an example

Two parts of the line with one finite point each (`1` at position 1, `2` at position 2) between the infinite
points `a` (left) and `b` (right). -/

/-- Triangulation of one point `v` between the infinite points: segments `i` (left) and `i+1` (right). -/
def seg1 (i v : Nat) : Tri where
  range := {i, i + 1}
  id := fun j => j
  vs := fun j => if j = i then [v, 2 ^ 64 - 2] else [v, 2 ^ 64 - 1]
  ns := fun j => if j = i then [sINF, i + 1] else [sINF, i]
  mks := fun _ => 0
  hull := [i, i + 1]
  mark := 0

/-- Triangulation of both points. -/
def seg2 : Tri where
  range := {30, 31, 32}
  id := fun j => j
  vs := fun j => if j = 30 then [1, 2 ^ 64 - 2] else if j = 31 then [1, 2] else [2, 2 ^ 64 - 1]
  ns := fun j => if j = 30 then [sINF, 31] else if j = 31 then [32, 30] else [sINF, 31]
  mks := fun _ => 0
  hull := [30, 32]
  mark := 0

/-- The parts. -/
def segParts : List (Part.Partition 1 ℚ) :=
  [⟨0, {1, 2 ^ 64 - 2, 2 ^ 64 - 1}, ⟨fun _ => 0, fun _ => 1⟩⟩,
    ⟨1, {2, 2 ^ 64 - 2, 2 ^ 64 - 1}, ⟨fun _ => 2, fun _ => 3⟩⟩]

theorem seg2_contains {i : Nat} (h : seg2.contains i = true) : i = 30 ∨ i = 31 ∨ i = 32 := by
  have := (Tri.contains_iff.mp h).1
  simpa [seg2] using this

theorem segs_in : MergeIn segParts [seg1 10 1, seg1 20 2] {11, 20} seg2 where
  disj := by
    simp only [List.pairwise_cons, List.mem_cons, List.not_mem_nil, or_false, forall_eq_or_imp, forall_eq,
      false_imp_iff, implies_true, List.Pairwise.nil, and_true, seg1, seg2]
    decide
  stored := by
    intro i hi
    simp only [Finset.mem_insert, Finset.mem_singleton] at hi
    rcases hi with rfl | rfl
    · exact ⟨seg1 10 1, by simp, by decide⟩
    · exact ⟨seg1 20 2, by simp, by decide⟩
  ns := by
    intro T hT i _ hr n hn hf
    simp only [List.mem_cons, List.not_mem_nil, or_false] at hT
    rcases hT with rfl | rfl <;> simp only [seg1, Finset.mem_insert, Finset.mem_singleton] at hr hn ⊢ <;>
      rcases hr with rfl | rfl <;> simp at hn <;> tauto
  vsLen := by
    intro T hT i _ hr
    simp only [List.mem_cons, List.not_mem_nil, or_false] at hT
    rcases hT with rfl | rfl <;> simp only [seg1] <;> split_ifs <;> rfl
  edgeLen := by
    intro i hi
    rcases seg2_contains hi with rfl | rfl | rfl <;> rfl
  partId := by
    intro k p hp
    match k with
    | 0 => simp [segParts] at hp; rw [← hp]
    | 1 => simp [segParts] at hp; rw [← hp]
    | k + 2 => simp [segParts] at hp
  one := by
    intro i hi v0 hv p hp p' hp' h1 h2
    simp only [segParts, List.mem_cons, List.not_mem_nil, or_false] at hp hp'
    have hv : v0 = 1 ∨ v0 = 2 := by
      rcases seg2_contains hi with rfl | rfl | rfl <;> simp [seg2] at hv <;> omega
    rcases hv with rfl | rfl <;> rcases hp with rfl | rfl <;> rcases hp' with rfl | rfl <;>
      first | rfl | (simp at h1; done) | (simp at h2; done)
  marks := by
    intro T hT x _
    simp only [List.mem_cons, List.not_mem_nil, or_false] at hT
    rcases hT with rfl | rfl | rfl <;> exact le_refl _
  mark := by
    intro T hT
    simp only [List.mem_cons, List.not_mem_nil, or_false] at hT
    rcases hT with rfl | rfl | rfl <;> decide

/-- The parts are merged: segment 31 between the finite points is inserted, the segments 11 and 20 which
crossed the other point are removed. -/
example (hash : Nat → BitVec 32) : ∃ R, MergeTri hash segParts [seg1 10 1, seg1 20 2] {11, 20} seg2 R ∧
    R.contains 10 = true ∧ R.contains 31 = true ∧ R.contains 21 = true ∧ R.contains 11 = false ∧
    R.contains 20 = false ∧ R.contains 30 = false ∧ R.vs 31 = [1, 2] ∧ R.HullOk 1 := by
  obtain ⟨R, hR⟩ := C49_mergeTriangulation_exists hash segParts [seg1 10 1, seg1 20 2] {11, 20} seg2 segs_in
    (by simp) (by
      intro i hi
      rcases seg2_contains hi with rfl | rfl | rfl
      · exact ⟨1, rfl, _, List.mem_cons_self, by simp⟩
      · exact ⟨1, rfl, _, List.mem_cons_self, by simp⟩
      · exact ⟨2, rfl, _, List.mem_cons_of_mem _ List.mem_cons_self, by simp⟩)
    (by
      intro T hT i hi
      simp only [List.mem_cons, List.not_mem_nil, or_false] at hT
      rcases hT with rfl | rfl | rfl <;> simp only [seg1, seg2] <;> split_ifs <;> rfl)
  refine ⟨R, hR, ?_⟩
  obtain ⟨h1, h2, _⟩ := C49_mergeTriangulation hash _ _ _ _ R segs_in hR
  have hh := C50_hull hash _ _ _ _ R segs_in (by
    intro T hT
    simp only [List.mem_cons, List.not_mem_nil, or_false] at hT
    have key : ∀ i v, i < 1000 → (seg1 i v).HullOk 1 := by
      intro i v hi
      refine ⟨by simp [seg1], fun j => ?_⟩
      rw [Tri.contains_iff]
      simp only [seg1, List.mem_cons, List.not_mem_nil, or_false, Finset.mem_insert, Finset.mem_singleton, sINF,
        vsFinite]
      constructor
      · rintro (rfl | rfl)
        · exact ⟨⟨by simp, by omega⟩, by simp [Part.isFinite, Part.cINF]⟩
        · exact ⟨⟨by simp, by omega⟩, by simp [Part.isFinite, Part.cINF]⟩
      · exact fun h => h.1.1
    rcases hT with rfl | rfl
    · exact key 10 1 (by decide)
    · exact key 20 2 (by decide)) hR
  refine ⟨(h1 10).mpr ?_, (h1 31).mpr ?_, (h1 21).mpr ?_, ?_, ?_, ?_, ?_, hh⟩
  · exact Or.inl ⟨seg1 10 1, by simp, by decide, by decide⟩
  · refine Or.inr ⟨by decide, Or.inl ?_⟩
    rintro ⟨p, hp, hv⟩
    simp only [segParts, List.mem_cons, List.not_mem_nil, or_false] at hp
    rcases hp with rfl | rfl
    · have := hv 2 (by simp [seg2]); simp at this
    · have := hv 1 (by simp [seg2]); simp at this
  · exact Or.inl ⟨seg1 20 2, by simp, by decide, by decide⟩
  · rw [← Bool.not_eq_true, h1 11]
    rintro (⟨T, hT, _, hn⟩ | ⟨hc, _⟩)
    · exact hn (by decide)
    · exact absurd hc (by decide)
  · rw [← Bool.not_eq_true, h1 20]
    rintro (⟨T, hT, _, hn⟩ | ⟨hc, _⟩)
    · exact hn (by decide)
    · exact absurd hc (by decide)
  · rw [← Bool.not_eq_true, h1 30]
    rintro (⟨T, hT, hc, hn⟩ | ⟨hc, hno | ⟨T, hT, e, he, hr, hv⟩⟩)
    · simp only [List.mem_cons, List.not_mem_nil, or_false] at hT
      rcases hT with rfl | rfl <;> exact absurd hc (by decide)
    · exact hno ⟨_, List.mem_cons_self, by simp [seg2]⟩
    · simp only [List.mem_cons, List.not_mem_nil, or_false] at hT
      simp only [Finset.mem_insert, Finset.mem_singleton] at he
      rcases hT with rfl | rfl <;> rcases he with rfl | rfl <;> simp [seg1, seg2] at hr hv
  · exact (h2 seg2 (by simp) 31 (by decide)).1

end DC
end Verif
