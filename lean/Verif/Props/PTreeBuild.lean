import Verif.Props.PTree
import Verif.Props.Grid
import Verif.Props.Box
import Verif.Props.DCSplit

/-!
# C63, C64, C81: the trees that the partitioners build
-/
namespace Verif
namespace PTree
variable {C : Type}

/-- The leaves of `t` split `S`: every finite id of `S` is in the leaf at exactly one path, the leaves have no other finite
ids, and each of them has all infinite ids. -/
def Splits (D : Nat) (S : Finset Nat) (t : PTree C) : Prop :=
  (∀ id, id < 2 ^ 64 - 2 ^ D → id ∈ S → ∃! p : List Nat, ∃ c ids, sub t p = some (leaf c ids) ∧ id ∈ ids) ∧
  ∀ p c ids, sub t p = some (leaf c ids) → (∀ id ∈ ids, id < 2 ^ 64 - 2 ^ D → id ∈ S) ∧
    ∀ id, 2 ^ 64 - 2 ^ D ≤ id → id < 2 ^ 64 → id ∈ ids

mutual
/-- Number of leaves with the id. -/
def cnt (id : Nat) : PTree C → Nat
  | leaf _ ids => if id ∈ ids then 1 else 0
  | node _ l => cntAll id l
/-- Number of leaves with the id. -/
def cntAll (id : Nat) : List (PTree C) → Nat
  | [] => 0
  | t :: l => cnt id t + cntAll id l
end

theorem cntAll_append (id : Nat) (l m : List (PTree C)) : cntAll id (l ++ m) = cntAll id l + cntAll id m := by
  induction l with
  | nil => simp [cntAll]
  | cons t l ih => rw [List.cons_append, cntAll, cntAll, ih]; omega

theorem cntAll_sum (id : Nat) (l : List (PTree C)) : cntAll id l = (l.map (cnt id)).sum := by
  induction l with
  | nil => simp [cntAll]
  | cons t l ih => rw [cntAll, ih]; simp

/-- Is the id in the leaf at the path? -/
def inLeaf (id : Nat) : Option (PTree C) → Bool
  | some (leaf _ ids) => decide (id ∈ ids)
  | _ => false

mutual
theorem cnt_eq (id : Nat) : ∀ t : PTree C, cnt id t = (flattenOne t).countP fun s => inLeaf id (some s)
  | leaf c ids => by simp [cnt, flattenOne, inLeaf]
  | node c l => by rw [cnt, flattenOne, cntAll_eq]
theorem cntAll_eq (id : Nat) : ∀ l : List (PTree C), cntAll id l = (flattenContainer l).countP fun s => inLeaf id (some s)
  | [] => by simp [cntAll, flattenContainer]
  | t :: l => by rw [cntAll, flattenContainer, List.countP_append, cnt_eq, cntAll_eq]
end

theorem cnt_paths (id : Nat) (t : PTree C) : cnt id t = (lp t).countP fun p => inLeaf id (sub t p) := by
  rw [cnt_eq]
  have h := congrArg (List.countP (inLeaf id)) (flattenOne_eq t)
  rw [List.countP_map, List.countP_map] at h
  exact h

theorem inLeaf_iff {id : Nat} {t : PTree C} {p : List Nat} :
    inLeaf id (sub t p) = true ↔ ∃ c ids, sub t p = some (leaf c ids) ∧ id ∈ ids := by
  cases h : sub t p with
  | none => simp [inLeaf]
  | some s =>
    cases s with
    | leaf c ids => simp [inLeaf]
    | node c l => simp [inLeaf]

theorem exists_unique_of_cnt {id : Nat} {t : PTree C} (h : cnt id t = 1) :
    ∃! p : List Nat, ∃ c ids, sub t p = some (leaf c ids) ∧ id ∈ ids := by
  rw [cnt_paths, List.countP_eq_length_filter, List.length_eq_one_iff] at h
  obtain ⟨p, hp⟩ := h
  have hmem : ∀ q, q ∈ (lp t).filter (fun p => inLeaf id (sub t p)) ↔ ∃ c ids, sub t q = some (leaf c ids) ∧ id ∈ ids := by
    intro q
    rw [List.mem_filter, inLeaf_iff, mem_lp]
    constructor
    · exact fun h => h.2
    · rintro ⟨c, ids, h1, h2⟩
      exact ⟨⟨ids, c, h1⟩, c, ids, h1, h2⟩
  refine ⟨p, (hmem p).mp (by rw [hp]; simp), fun q hq => ?_⟩
  have := (hmem q).mpr hq
  rw [hp] at this
  simpa using this

theorem cnt_zero {id : Nat} {t : PTree C} (h : cnt id t = 0) {p : List Nat} {c : Option C} {ids : Finset Nat}
    (hp : sub t p = some (leaf c ids)) : id ∉ ids := by
  intro hi
  rw [cnt_paths, List.countP_eq_zero] at h
  exact h p ((mem_lp t p).mpr ⟨ids, c, hp⟩) (inLeaf_iff.mpr ⟨c, ids, hp, hi⟩)

/-- All leaves have all infinite ids. -/
def AllInf (D : Nat) (t : PTree C) : Prop :=
  ∀ p c ids, sub t p = some (leaf c ids) → ∀ id, 2 ^ 64 - 2 ^ D ≤ id → id < 2 ^ 64 → id ∈ ids

theorem allInf_leaf {D : Nat} {c : Option C} {ids : Finset Nat} :
    AllInf D (leaf c ids) ↔ ∀ id, 2 ^ 64 - 2 ^ D ≤ id → id < 2 ^ 64 → id ∈ ids := by
  constructor
  · intro h; exact h [] c ids (sub_nil _)
  · intro h p c' ids' hs
    cases p with
    | nil => rw [sub_nil] at hs; cases hs; exact h
    | cons i q => simp at hs

theorem allInf_node {D : Nat} {c : Option C} {l : List (PTree C)} : AllInf D (node c l) ↔ ∀ t ∈ l, AllInf D t := by
  constructor
  · intro h t ht p c' ids hs
    obtain ⟨i, hi⟩ := List.mem_iff_getElem?.mp ht
    exact h (i :: p) c' ids (by rw [sub_node, hi]; exact hs)
  · rintro h2 p c' ids hs
    cases p with
    | nil => simp at hs
    | cons i q =>
      rw [sub_node] at hs
      cases ht : l[i]? with
      | none => rw [ht] at hs; simp at hs
      | some t => rw [ht] at hs; exact h2 t (List.mem_of_getElem? ht) q c' ids hs

/-- Counting form of `Splits`. -/
def Counts (D : Nat) (S : Finset Nat) (t : PTree C) : Prop :=
  (∀ id, id < 2 ^ 64 - 2 ^ D → cnt id t = if id ∈ S then 1 else 0) ∧ AllInf D t

theorem Counts.splits {D : Nat} {S : Finset Nat} {t : PTree C} (h : Counts D S t) : Splits D S t := by
  refine ⟨fun id hid hS => exists_unique_of_cnt (by rw [h.1 id hid, if_pos hS]), fun p c ids hp => ⟨?_, h.2 p c ids hp⟩⟩
  intro id hi hid
  by_contra hS
  exact cnt_zero (by rw [h.1 id hid, if_neg hS]) hp hi

theorem Counts.leaf {D : Nat} {S : Finset Nat} (c : Option C)
    (h : ∀ id, 2 ^ 64 - 2 ^ D ≤ id → id < 2 ^ 64 → id ∈ S) : Counts D S (PTree.leaf c S) :=
  ⟨fun id _ => by rw [cnt], allInf_leaf.mpr h⟩

/-- A node with children for the parts of a list of sets that contains each finite id of `S` once. -/
theorem Counts.node {D : Nat} {S : Finset Nat} (c : Option C) {Ls : List (Finset Nat)} {l : List (PTree C)}
    (h : List.Forall₂ (Counts D) Ls l)
    (hL : ∀ id, id < 2 ^ 64 - 2 ^ D → Ls.countP (fun s => decide (id ∈ s)) = if id ∈ S then 1 else 0) :
    Counts D S (PTree.node c l) := by
  refine ⟨fun id hid => ?_, allInf_node.mpr ?_⟩
  · rw [cnt, ← hL id hid]
    clear hL
    induction h with
    | nil => simp [cntAll]
    | cons h1 _ ih => rw [cntAll, h1.1 id hid, ih, List.countP_cons]; simp only [decide_eq_true_eq]; omega
  · clear hL
    induction h with
    | nil => simp
    | cons h1 _ ih =>
      intro t ht
      rcases List.mem_cons.mp ht with rfl | ht
      · exact h1.2
      · exact ih t ht

theorem cnt_setChk (c : Option C) (id : Nat) (t : PTree C) : cnt id (t.setChk c) = cnt id t := by
  cases t <;> simp [setChk, cnt]

theorem Counts.setChk {D : Nat} {S : Finset Nat} {t : PTree C} (h : Counts D S t) (c : Option C) : Counts D S (t.setChk c) := by
  refine ⟨fun id hid => by rw [cnt_setChk]; exact h.1 id hid, ?_⟩
  cases t with
  | leaf c' ids => rw [PTree.setChk, allInf_leaf]; exact allInf_leaf.mp h.2
  | node c' l => rw [PTree.setChk, allInf_node]; exact allInf_node.mp h.2

end PTree

namespace Build
open PTree
variable {D : Nat} {K : Type}

/-- All infinite ids. -/
def HasInf (D : Nat) (S : Finset Nat) : Prop := ∀ id, 2 ^ 64 - 2 ^ D ≤ id → id < 2 ^ 64 → id ∈ S

theorem mem_addInf (hD : D ≤ 64) {s : Finset Nat} {i : Nat} :
    i ∈ addInf D s ↔ (2 ^ 64 - 2 ^ D ≤ i ∧ i < 2 ^ 64) ∨ i ∈ s := by
  rw [addInf, Part.mem_foldl_insert, Part.mem_infIds hD]; rfl

theorem addInf_inf (hD : D ≤ 64) (s : Finset Nat) : HasInf D (addInf D s) :=
  fun _ h1 h2 => (mem_addInf hD).mpr (Or.inl ⟨h1, h2⟩)

theorem mem_addInf_fin (hD : D ≤ 64) {s : Finset Nat} {i : Nat} (hi : i < 2 ^ 64 - 2 ^ D) : i ∈ addInf D s ↔ i ∈ s := by
  rw [mem_addInf hD]
  constructor
  · rintro (h | h)
    · omega
    · exact h
  · exact Or.inr

theorem mem_select {c : Nat → Bool} {s : Finset Nat} {i : Nat} (hi : i < 2 ^ 64 - 2 ^ D) :
    i ∈ select D c s ↔ i ∈ s ∧ c i = true := by
  rw [select, Finset.mem_filter, Part.isFinite_iff']
  tauto

/-- Two parts: one for the condition and one for its negation. -/
theorem count_two (hD : D ≤ 64) {S L R : Finset Nat} {c : Nat → Bool}
    (hL : ∀ id, id < 2 ^ 64 - 2 ^ D → (id ∈ L ↔ id ∈ S ∧ c id = true))
    (hR : ∀ id, id < 2 ^ 64 - 2 ^ D → (id ∈ R ↔ id ∈ S ∧ c id = false)) (id : Nat) (hid : id < 2 ^ 64 - 2 ^ D) :
    [L, R].countP (fun s => decide (id ∈ s)) = if id ∈ S then 1 else 0 := by
  simp only [List.countP_cons, List.countP_nil, hL id hid, hR id hid]
  by_cases h : id ∈ S <;> cases hc : c id <;> simp [h]

theorem counts_two (hD : D ≤ 64) {C : Type} (chk : Option C) {S L R : Finset Nat} {c : Nat → Bool} {l r : PTree C}
    (hL : ∀ id, id < 2 ^ 64 - 2 ^ D → (id ∈ L ↔ id ∈ S ∧ c id = true))
    (hR : ∀ id, id < 2 ^ 64 - 2 ^ D → (id ∈ R ↔ id ∈ S ∧ c id = false)) (hl : Counts D L l) (hr : Counts D R r) :
    Counts D S (.node chk [l, r]) :=
  .node chk (.cons hl (.cons hr .nil)) (count_two hD hL hR)

section
variable [Field K] [LinearOrder K]

/-- **C63 (simple).** The leaves of the tree of `SimplePartitioner` split the ids. -/
theorem C63_simple (hD : D ≤ 64) (k0 : Fin D) (pts : Nat → Vec D K) (bounds : Box D K) (ids : Finset Nat) :
    Splits D ids (simple k0 pts bounds ids) := by
  apply Counts.splits
  refine counts_two hD _ (c := fun i => (splitBox bounds k0 ((bounds.low k0 + bounds.high k0) / 2)).1.containsPoint (pts i))
    ?_ ?_ (.leaf _ (addInf_inf hD _)) (.leaf _ (addInf_inf hD _))
  · intro id hid
    rw [mem_addInf_fin hD hid, mem_select hid]
  · intro id hid
    rw [mem_addInf_fin hD hid, mem_select hid]
    simp

theorem counts_hyper (hD : D ≤ 64) (slack : K) (pts : Nat → Vec D K) (bounds : Box D K) (plane : List Bool → Vec D K × K)
    (n : Nat) : ∀ (path : List Bool) (chk : Option (Chk D K)) (ids : Finset Nat), HasInf D ids →
    Counts D ids (hyper slack pts bounds plane n path chk ids) := by
  induction n using Nat.strong_induction_on with
  | _ n ih =>
    intro path chk ids hinf
    rw [hyper]
    split_ifs with h
    · refine counts_two hD _ (c := fun i => decide (0 < Chk.distanceToPlane (pts i) (plane path).1 (plane path).2)) ?_ ?_
        (ih (n / 2) (by omega) _ _ _ (addInf_inf hD _)) (ih (n / 2) (by omega) _ _ _ (addInf_inf hD _))
      · intro id hid
        rw [mem_addInf_fin hD hid, Finset.mem_filter, decide_eq_true_eq]
      · intro id hid
        rw [mem_addInf_fin hD hid, Finset.mem_filter, decide_eq_false_iff_not]
    · exact .leaf _ hinf

/-- **C63 (hyperplanes).** Whatever the planes, the leaves of the tree of the hyperplane bipartitioner split the ids. -/
theorem C63_hyperplane (hD : D ≤ 64) (slack : K) (pts : Nat → Vec D K) (plane : List Bool → Vec D K × K) (n : Nat)
    (bounds : Box D K) (ids : Finset Nat) (hinf : HasInf D ids) : Splits D ids (hyperplane slack pts plane n bounds ids) :=
  (counts_hyper hD slack pts bounds plane n [] _ ids hinf).splits

theorem counts_binary (hD : D ≤ 64) (cutoff : Nat) (pts : Nat → Vec D K) (cut : List Bool → Box D K → Fin D × K) :
    ∀ (r : Nat) (path : List Bool) (bounds : Box D K) (ids : Finset Nat), HasInf D ids →
    Counts D ids (binary cutoff pts cut r path bounds ids)
  | 0, _, _, ids, hinf => .leaf _ hinf
  | r + 1, path, bounds, ids, hinf => by
    rw [binary]
    split_ifs with h
    · refine counts_two hD _ (c := fun i => (splitBox bounds (cut path bounds).1 (cut path bounds).2).1.containsPoint (pts i))
        ?_ ?_ (counts_binary hD cutoff pts cut r _ _ _ (addInf_inf hD _))
        (counts_binary hD cutoff pts cut r _ _ _ (addInf_inf hD _))
      · intro id hid
        rw [mem_addInf_fin hD hid, mem_select hid]
      · intro id hid
        rw [mem_addInf_fin hD hid, mem_select hid]
        simp
    · exact .leaf _ hinf

/-- **C63 (box estimating).** Whatever the estimated boxes, the leaves of the tree of the box estimating sample partitioner
split the ids. -/
theorem C63_binary (hD : D ≤ 64) (cutoff : Nat) (pts : Nat → Vec D K) (cut : List Bool → Box D K → Fin D × K) (r : Nat)
    (bounds : Box D K) (ids : Finset Nat) (hinf : HasInf D ids) : Splits D ids (binary cutoff pts cut r [] bounds ids) :=
  (counts_binary hD cutoff pts cut r [] bounds ids hinf).splits

end

theorem mem_partIds_fin (hD : D ≤ 64) {ids : Finset Nat} {part : Nat → Nat} {i p : Nat} (hp : p < 2 ^ 64 - 2 ^ D) :
    p ∈ Checker.partIds D ids part i ↔ p ∈ ids ∧ part p = i := by
  rw [Checker.C61_parts hD ids part i p (Nat.lt_of_lt_of_le hp (Nat.sub_le _ _)), if_pos hp]

theorem partIds_inf (hD : D ≤ 64) (ids : Finset Nat) (part : Nat → Nat) (i : Nat) : HasInf D (Checker.partIds D ids part i) := by
  intro id h1 h2
  rw [Checker.C61_parts hD ids part i id h2, if_neg (by omega)]
  trivial

section
variable [Field K] [LinearOrder K]

/-- **C63 (assignment).** If the assignment maps every finite id to a part number in range, the leaves of the trees of the
nearest sample point, centre distance and box distance partitioners split the ids. -/
theorem C63_assign (hD : D ≤ 64) (n : Nat) (part : Nat → Nat) (mkChk : Finset Nat → Chk D K) (bounds : Box D K) (ids : Finset Nat)
    (hp : ∀ i ∈ ids, i < 2 ^ 64 - 2 ^ D → part i < n) :
    ∃ t, assign n part mkChk bounds ids = some t ∧ Splits D ids t := by
  rw [assign, if_pos fun i hi hf => hp i hi (Part.isFinite_iff'.mp hf)]
  refine ⟨_, rfl, Counts.splits (.node _ (Ls := (List.range n).map (Checker.partIds D ids part)) ?_ ?_)⟩
  · rw [List.forall₂_map_left_iff, List.forall₂_map_right_iff, List.forall₂_same]
    exact fun j _ => .leaf _ (partIds_inf hD ids part j)
  · intro id hid
    rw [List.countP_map]
    have : (List.range n).countP ((fun s => decide (id ∈ s)) ∘ Checker.partIds D ids part) =
        (List.range n).countP fun j => decide (id ∈ ids ∧ part id = j) := by
      apply List.countP_congr
      intro j _
      simp only [Function.comp, decide_eq_true_eq]
      exact mem_partIds_fin hD hid
    rw [this]
    by_cases h : id ∈ ids
    · rw [if_pos h]
      have h2 := hp id h hid
      have : (List.range n).countP (fun j => decide (id ∈ ids ∧ part id = j)) = (List.range n).count (part id) := by
        rw [List.count]
        apply List.countP_congr
        intro j _
        rw [decide_eq_true_eq, beq_iff_eq]
        exact ⟨fun h' => h'.2.symm, fun h' => ⟨h, h'.symm⟩⟩
      rw [this]
      exact List.count_eq_one_of_mem List.nodup_range (List.mem_range.mpr h2)
    · rw [if_neg h, List.countP_eq_zero]
      intro j _
      simp [h]

theorem counts_bipart (hD : D ≤ 64) (cutoff : Nat) (part : List Bool → Nat → Bool) (mkChk : Finset Nat → Chk D K) (n : Nat) :
    ∀ (path : List Bool) (bounds : Box D K) (ids : Finset Nat), HasInf D ids →
    Counts D ids (bipart cutoff part mkChk n path bounds ids) := by
  induction n using Nat.strong_induction_on with
  | _ n ih =>
    intro path bounds ids hinf
    rw [bipart]
    split_ifs with h
    · refine counts_two hD _ (c := fun i => !part path i) ?_ ?_
        ((ih (n / 2) (by omega) _ _ _ (partIds_inf hD _ _ _)).setChk _)
        ((ih (n / 2) (by omega) _ _ _ (partIds_inf hD _ _ _)).setChk _)
      · intro id hid
        rw [mem_partIds_fin hD hid]
        cases part path id <;> simp
      · intro id hid
        rw [mem_partIds_fin hD hid]
        cases part path id <;> simp
    · exact .leaf _ hinf

/-- **C63 (bipartitioner).** Whatever the samples, the leaves of the tree of the nearest sample point bipartitioner split the
ids. -/
theorem C63_bipart (hD : D ≤ 64) (cutoff : Nat) (part : List Bool → Nat → Bool) (mkChk : Finset Nat → Chk D K) (n : Nat)
    (bounds : Box D K) (ids : Finset Nat) (hinf : HasInf D ids) :
    Splits D ids (bipart cutoff part mkChk n [] bounds ids) :=
  (counts_bipart hD cutoff part mkChk n [] bounds ids hinf).splits

theorem countP_of_unique {α : Type} {l : List α} {P : α → Bool} (h : ∃! i : Nat, ∃ a, l[i]? = some a ∧ P a = true) :
    l.countP P = 1 := by
  induction l with
  | nil => obtain ⟨i, ⟨a, h, _⟩, _⟩ := h; simp at h
  | cons a l ih =>
    obtain ⟨i, ⟨b, hb, hP⟩, hu⟩ := h
    rw [List.countP_cons]
    cases i with
    | zero =>
      obtain rfl : a = b := by simpa using hb
      rw [if_pos hP]
      have : l.countP P = 0 := by
        rw [List.countP_eq_zero]
        intro c hc hPc
        obtain ⟨j, hj⟩ := List.mem_iff_getElem?.mp hc
        have := hu (j + 1) ⟨c, by simpa using hj, hPc⟩
        omega
      omega
    | succ i =>
      have h1 : ¬ P a = true := fun ha => by
        have := hu 0 ⟨a, by simp, ha⟩
        omega
      rw [if_neg h1, ih]
      refine ⟨i, ⟨b, by simpa using hb, hP⟩, ?_⟩
      rintro j ⟨c, hc, hPc⟩
      have := hu (j + 1) ⟨c, by simpa using hc, hPc⟩
      omega

theorem mapM_forall₂ {α β : Type} {f : α → Option β} : ∀ {l : List α} {r : List β}, l.mapM f = some r →
    List.Forall₂ (fun a b => f a = some b) l r
  | [], r, h => by
    obtain rfl : r = [] := by simpa using h.symm
    exact .nil
  | a :: l, r, h => by
    rw [List.mapM_cons] at h
    cases ha : f a with
    | none => rw [ha] at h; simp at h
    | some b =>
      cases hl : l.mapM f with
      | none => rw [ha, hl] at h; simp at h
      | some r' =>
        rw [ha, hl] at h
        obtain rfl : b :: r' = r := by simpa using h
        exact .cons ha (mapM_forall₂ hl)

theorem counts_old (hD : D ≤ 64) (cutoff : Nat) (split : Nat → Finset Nat → Option (List (Part.Partition D K)))
    (hs : ∀ n S ps, split n S = some ps → ∃ m l, (∀ i, i ∈ l ↔ i ∈ S) ∧ Part.SplitsInto D m l false ps) :
    ∀ (r : Nat) (bounds : Box D K) (ids : Finset Nat) (prov : Nat) (t : PTree (Chk D K)), HasInf D ids →
    old cutoff split r bounds ids prov = some t → Counts D ids t
  | 0, bounds, ids, prov, t, hinf, h => by
    rw [old] at h
    cases h
    refine .node _ (Ls := [ids]) (.cons (.leaf _ hinf) .nil) ?_
    intro id _
    simp [List.countP_cons]
  | r + 1, bounds, ids, prov, t, hinf, h => by
    rw [old] at h
    cases hp : split prov ids with
    | none => rw [hp] at h; simp at h
    | some ps =>
      rw [hp, Option.bind_some, Option.map_eq_some_iff] at h
      obtain ⟨l, hl, rfl⟩ := h
      obtain ⟨m, idl, hid, _, _, hex, hno, hall⟩ := hs prov ids ps hp
      refine .node _ (Ls := ps.map (·.points)) ?_ ?_
      · have h2 := mapM_forall₂ hl
        rw [List.forall₂_map_left_iff]
        have hz : ps = ps.zipIdx.map Prod.fst := by simp
        conv in ps => rw [hz]
        rw [List.forall₂_map_left_iff]
        refine List.Forall₂.imp ?_ (List.forall₂_iff_zip.mpr ⟨h2.length_eq, fun {a b} hab => ?_⟩ :
          List.Forall₂ (fun a b => a ∈ ps.zipIdx ∧ (if cutoff < ids.card then old cutoff split r a.1.bounds a.1.points (prov + digits a.2)
            else some (.leaf (some (.ofBox a.1.bounds)) a.1.points)) = some b) ps.zipIdx l)
        · rintro ⟨p, i⟩ t ⟨hm, ht⟩
          have hpm : p ∈ ps := by
            have := List.mem_map_of_mem (f := Prod.fst) hm
            simpa using this
          have hpi : HasInf D p.points := fun id h1 h2 => (hall id h1 p hpm).mpr ⟨rfl, h2⟩
          split_ifs at ht
          · exact counts_old hD cutoff split hs r _ _ _ t hpi ht
          · cases ht
            exact .leaf _ hpi
        · exact ⟨(List.of_mem_zip hab).1, (List.forall₂_iff_zip.mp h2).2 hab⟩
      · intro id hlt
        rw [List.countP_map]
        by_cases h : id ∈ ids
        · rw [if_pos h]
          apply countP_of_unique
          obtain ⟨i, ⟨p, h1, h2⟩, h3⟩ := hex id ((hid id).mpr h) hlt
          exact ⟨i, ⟨p, h1, by simpa using h2⟩, fun j ⟨q, hq1, hq2⟩ => h3 j ⟨q, hq1, by simpa using hq2⟩⟩
        · rw [if_neg h, List.countP_eq_zero]
          intro p hp'
          simpa using hno id hlt (fun h' => h ((hid id).mp h')) p hp'

/-- **C63 (old partitioner).** If every call of the splitter that returns splits its ids (C42), the leaves of a tree that
`OldPartitionerPartitioner` returns split the ids. -/
theorem C63_old (hD : D ≤ 64) (cutoff : Nat) (split : Nat → Finset Nat → Option (List (Part.Partition D K)))
    (hs : ∀ n S ps, split n S = some ps → ∃ m l, (∀ i, i ∈ l ↔ i ∈ S) ∧ Part.SplitsInto D m l false ps)
    (r : Nat) (bounds : Box D K) (ids : Finset Nat) (prov : Nat) (t : PTree (Chk D K)) (hinf : HasInf D ids)
    (h : old cutoff split r bounds ids prov = some t) : Splits D ids t :=
  (counts_old hD cutoff split hs r bounds ids prov t hinf h).splits

/-- If all calls of the splitter return, so does the construction of the tree. -/
theorem C63_old_total (cutoff : Nat) (split : Nat → Finset Nat → Option (List (Part.Partition D K)))
    (hs : ∀ n S, (split n S).isSome) : ∀ (r : Nat) (bounds : Box D K) (ids : Finset Nat) (prov : Nat),
    (old cutoff split r bounds ids prov).isSome
  | 0, _, _, _ => rfl
  | r + 1, bounds, ids, prov => by
    rw [old]
    obtain ⟨ps, hps⟩ := Option.isSome_iff_exists.mp (hs prov ids)
    rw [hps, Option.bind_some, Option.isSome_map]
    generalize ps.zipIdx = zs
    induction zs with
    | nil => simp
    | cons z zs ih =>
      obtain ⟨l, hl⟩ := Option.isSome_iff_exists.mp ih
      have : ∃ b, (if cutoff < ids.card then old cutoff split r z.1.bounds z.1.points (prov + digits z.2)
        else some (.leaf (some (.ofBox z.1.bounds)) z.1.points)) = some b := by
        split_ifs
        · exact Option.isSome_iff_exists.mp (C63_old_total cutoff split hs r _ _ _)
        · exact ⟨_, rfl⟩
      obtain ⟨b, hb⟩ := this
      rw [List.mapM_cons, hb, hl]
      rfl

end
end Build
end Verif
