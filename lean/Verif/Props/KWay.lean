import Verif.Props.PTreeBuild
import Verif.Model.DCTri
import Mathlib.Algebra.BigOperators.Group.List.Lemmas

/-!
# C63, C64, C81: k-way splitter, splitters inside trees, checkers of all nodes
-/
namespace Verif
namespace Part
variable {D : Nat} {K : Type} [Field K] [LinearOrder K]

theorem twoWay_nofin {stats : Stats D K} {k : Nat} (hk : ¬ k < D) {pts : Nat → Vec D K} {ids : List Nat} {ign : Bool}
    {ps : List (Partition D K)} (h : twoWay stats k pts ids ign = some ps) : ∀ id ∈ ids, isFinite D id ≠ true := by
  have hno : ∀ (ids : List Nat) (init qs : List (Partition D K)),
      distribute D (fun id => twoPart stats k (pts id)) ids init = some qs → ∀ id ∈ ids, isFinite D id ≠ true := by
    intro ids
    induction ids with
    | nil => simp
    | cons a ids ih =>
      intro init qs h id hid hf
      rw [distribute] at h
      by_cases ha : isFinite D a = true
      · rw [if_neg (by simp [ha]), twoPart, dif_neg hk] at h
        simp at h
      · rw [if_pos (by simp [ha])] at h
        rcases List.mem_cons.mp hid with rfl | hid
        · exact ha hf
        · exact ih init qs h id hid hf
  obtain ⟨qs, hqs, -⟩ := Option.map_eq_some_iff.mp h
  exact hno ids _ qs hqs

theorem twoWay_some (hD : D ≤ 64) (stats : Stats D K) (k : Nat) (pts : Nat → Vec D K) (ids : List Nat) (ign : Bool)
    {ps : List (Partition D K)} (h : twoWay stats k pts ids ign = some ps) : SplitsInto D 2 ids ign ps := by
  by_cases hk : k < D
  · obtain ⟨qs, h1, h2⟩ := twoWay_splits hD stats ⟨k, hk⟩ pts ids ign
    rw [show twoWay stats k pts ids ign = some qs from h1] at h
    cases h
    exact h2
  · have hno := twoWay_nofin hk h
    obtain ⟨rs, h1, h2, h3⟩ := splitter_spec hD (fun id => twoPart stats k (pts id)) (fun _ => 0) ids (twoInit stats k) ign
      (by
        intro p hp
        simp only [twoInit, List.mem_cons, List.not_mem_nil, or_false] at hp
        rcases hp with rfl | rfl <;> rfl)
      (fun id hid hf => absurd hf (hno id hid))
    rw [show twoWay stats k pts ids ign = some rs from h1] at h
    cases h
    refine splitsInto_of_spec (by simp [twoInit]) ?_ (fun id hid hf => absurd hf (hno id hid)) h2 h3
    intro i h
    match i, h with
    | 0, _ => rfl
    | 1, _ => rfl

/-- Whenever a splitter returns, it splits its ids. -/
theorem Splitter.Parts.splits (hD : D ≤ 64) {sp : Splitter} {big tiny : K} {pts : Nat → Vec D K} {len : Nat}
    {S : Finset Nat} {ps : List (Partition D K)} (h : sp.Parts big tiny pts len S ps) :
    ∃ m l, (∀ i, i ∈ l ↔ i ∈ S) ∧ SplitsInto D m l false ps := by
  obtain ⟨ids, work, _, hS, _, hrun⟩ := h
  cases sp with
  | dWay =>
    obtain ⟨qs, h1, h2⟩ := C42_dWay hD (getPointStats big tiny pts work true) pts ids false
    have : some qs = some ps := h1.symm.trans hrun
    cases this
    exact ⟨_, ids, hS, h2⟩
  | oneDim k => exact ⟨2, ids, hS, twoWay_some hD _ _ pts ids false hrun⟩
  | cycle => exact ⟨2, ids, hS, twoWay_some hD _ _ pts ids false hrun⟩
  | extend => exact ⟨2, ids, hS, twoWay_some hD _ _ pts ids false hrun⟩

end Part

namespace Build
open PTree
variable {D : Nat} {K : Type} [Field K] [LinearOrder K]

/-- **C63 (old partitioner with its splitters).** With any of the four splitters: the leaves of every tree that is returned
split the ids. -/
theorem C63_old_splitter (hD : D ≤ 64) (cutoff : Nat) (sp : Part.Splitter) (big tiny : K) (pts : Nat → Vec D K)
    (split : Nat → Finset Nat → Option (List (Part.Partition D K)))
    (hs : ∀ n S ps, split n S = some ps → sp.Parts big tiny pts n S ps)
    (r : Nat) (bounds : Box D K) (ids : Finset Nat) (t : PTree (Chk D K)) (hinf : HasInf D ids)
    (h : old cutoff split r bounds ids 1 = some t) : Splits D ids t :=
  C63_old hD cutoff split (fun n S ps hp => (hs n S ps hp).splits hD) r bounds ids 1 t hinf h

/-! ### k-way splitter -/

theorem concat_done {α β : Type} {f : α → Res (List β)} : ∀ {l : List α} {r : List β}, concat f l = .done r →
    ∃ rs, List.Forall₂ (fun a x => f a = .done x) l rs ∧ r = rs.flatten
  | [], r, h => by
    cases h
    exact ⟨[], .nil, rfl⟩
  | a :: l, r, h => by
    rw [concat] at h
    cases ha : f a with
    | ub => rw [ha] at h; simp at h
    | timeout => rw [ha] at h; simp at h
    | done x =>
      rw [ha, Res.bind_done] at h
      cases hl : concat f l with
      | ub => rw [hl] at h; simp at h
      | timeout => rw [hl] at h; simp at h
      | done y =>
        rw [hl, Res.bind_done] at h
        cases h
        obtain ⟨rs, h1, rfl⟩ := concat_done hl
        exact ⟨x :: rs, .cons ha h1, rfl⟩

omit [Field K] [LinearOrder K] in
theorem Counts.flat {S : Finset Nat} (c : Option (Chk D K)) {Ls : List (Finset Nat)} {rs : List (List (PTree (Chk D K)))}
    (h : List.Forall₂ (fun L l => Counts D L (.node none l)) Ls rs)
    (hL : ∀ id, id < 2 ^ 64 - 2 ^ D → Ls.countP (fun s => decide (id ∈ s)) = if id ∈ S then 1 else 0) :
    Counts D S (PTree.node c rs.flatten) := by
  refine ⟨fun id hid => ?_, allInf_node.mpr ?_⟩
  · rw [cnt, ← hL id hid]
    clear hL
    induction h with
    | nil => simp [cntAll]
    | cons h1 _ ih =>
      have := h1.1 id hid
      rw [cnt] at this
      rw [List.flatten_cons, cntAll_append, this, ih, List.countP_cons]
      simp only [decide_eq_true_eq]
      omega
  · clear hL
    induction h with
    | nil => simp
    | cons h1 _ ih =>
      intro t ht
      rw [List.flatten_cons] at ht
      rcases List.mem_append.mp ht with ht | ht
      · exact allInf_node.mp h1.2 t ht
      · exact ih t ht

theorem bucket_lt [FloorRing K] {fl : K → K} {mn mx : K} {n : Nat} (hn : 0 < n) {c : K} {b : Nat}
    (h : bucket fl mn mx n c = .done b) : b < n := by
  unfold bucket at h
  simp only at h
  split_ifs at h
  cases h
  omega

theorem mem_buckets [FloorRing K] {fl : K → K} {mn mx : K} {n : Nat} {c : Nat → K} : ∀ {l : List Nat} {bs : List (Nat × Nat)},
    buckets (D := D) fl mn mx n c l = .done bs →
    (∀ i ∈ l, Part.isFinite D i = true → ∃ b, bucket fl mn mx n (c i) = .done b) ∧
    ∀ i b, (i, b) ∈ bs ↔ i ∈ l ∧ Part.isFinite D i = true ∧ bucket fl mn mx n (c i) = .done b
  | [], bs, h => by
    cases h
    simp
  | a :: l, bs, h => by
    rw [buckets] at h
    by_cases ha : Part.isFinite D a = true
    · rw [if_pos ha] at h
      cases hb : bucket fl mn mx n (c a) with
      | ub => rw [hb] at h; simp at h
      | timeout => rw [hb] at h; simp at h
      | done b =>
        rw [hb, Res.bind_done] at h
        cases hr : buckets (D := D) fl mn mx n c l with
        | ub => rw [hr] at h; simp at h
        | timeout => rw [hr] at h; simp at h
        | done r =>
          rw [hr, Res.bind_done] at h
          cases h
          obtain ⟨h1, h2⟩ := mem_buckets hr
          refine ⟨fun i hi hf => ?_, fun i b' => ?_⟩
          · rcases List.mem_cons.mp hi with rfl | hi
            · exact ⟨b, hb⟩
            · exact h1 i hi hf
          · rw [List.mem_cons, h2, List.mem_cons, Prod.mk.injEq]
            constructor
            · rintro (⟨rfl, rfl⟩ | ⟨g1, g2, g3⟩)
              · exact ⟨Or.inl rfl, ha, hb⟩
              · exact ⟨Or.inr g1, g2, g3⟩
            · rintro ⟨rfl | g1, g2, g3⟩
              · rw [hb] at g3
                cases g3
                exact Or.inl ⟨rfl, rfl⟩
              · exact Or.inr ⟨g1, g2, g3⟩
    · rw [if_neg ha] at h
      obtain ⟨h1, h2⟩ := mem_buckets h
      refine ⟨fun i hi hf => ?_, fun i b' => ?_⟩
      · rcases List.mem_cons.mp hi with rfl | hi
        · exact absurd hf ha
        · exact h1 i hi hf
      · rw [h2, List.mem_cons]
        constructor
        · rintro ⟨g1, g2⟩
          exact ⟨Or.inr g1, g2⟩
        · rintro ⟨rfl | g1, g2⟩
          · exact absurd g2.1 ha
          · exact ⟨g1, g2⟩

/-- The set of ids of bucket `b`. -/
def bucketIds (bs : List (Nat × Nat)) (b : Nat) : Finset Nat := ((bs.filter fun x => x.2 == b).map Prod.fst).toFinset

theorem mem_bucketIds {bs : List (Nat × Nat)} {b i : Nat} : i ∈ bucketIds bs b ↔ (i, b) ∈ bs := by
  simp only [bucketIds, List.mem_toFinset, List.mem_map, List.mem_filter, beq_iff_eq]
  constructor
  · rintro ⟨⟨x, y⟩, ⟨h1, h2⟩, rfl⟩
    simp only at h2
    subst h2
    exact h1
  · intro h
    exact ⟨(i, b), ⟨h, rfl⟩, rfl⟩

theorem counts_kwayRec [FloorRing K] (hD : D ≤ 64) (fl : K → K) (big tiny : K) (pts : Nat → Vec D K)
    (it : Finset Nat → List Nat) (hit : ∀ s i, i ∈ it s ↔ i ∈ s) :
    ∀ (sp : List Nat) (depth : Nat) (ids : Finset Nat) (l : List (PTree (Chk D K))), (∀ n ∈ sp, 0 < n) →
    kwayRec fl big tiny pts it sp depth ids = .done l →
    (∀ c, Counts D ids (.node c l)) ∧ l.length = sp.prod ∧ ∀ t ∈ l, ∃ b s, t = .leaf (some (.ofBox b)) s
  | [], depth, ids, l, _, h => by
    rw [kwayRec] at h
    cases h
    refine ⟨fun c => .node c (Ls := [addInf D ids]) (.cons (.leaf _ (addInf_inf hD _)) .nil) ?_, by simp, ?_⟩
    · intro id hid
      simp only [List.countP_cons, List.countP_nil, decide_eq_true_eq, zero_add]
      simp only [mem_addInf_fin hD hid]
    · intro t ht
      rw [List.mem_singleton] at ht
      exact ⟨_, _, ht⟩
  | n :: sp, depth, ids, l, hpos, h => by
    rw [kwayRec] at h
    split_ifs at h with hd
    simp only at h
    cases hb : buckets (D := D) fl ((Part.getPointStatsSeq big tiny pts (it ids) true).min ⟨depth % D, hd⟩)
        ((Part.getPointStatsSeq big tiny pts (it ids) true).max ⟨depth % D, hd⟩) n (fun i => pts i ⟨depth % D, hd⟩) (it ids) with
    | ub => rw [hb] at h; simp at h
    | timeout => rw [hb] at h; simp at h
    | done bs =>
      rw [hb, Res.bind_done] at h
      obtain ⟨rs, h1, rfl⟩ := concat_done h
      obtain ⟨h2, h3⟩ := mem_buckets hb
      have hrec : ∀ b x, kwayRec fl big tiny pts it sp (depth + 1) (bucketIds bs b) = .done x →
          (∀ c, Counts D (bucketIds bs b) (.node c x)) ∧ x.length = sp.prod ∧ ∀ t ∈ x, ∃ b s, t = .leaf (some (.ofBox b)) s :=
        fun b x hx => counts_kwayRec hD fl big tiny pts it hit sp (depth + 1) _ x
          (fun m hm => hpos m (List.mem_cons_of_mem _ hm)) hx
      have hf : List.Forall₂ (fun b x => (∀ c, Counts D (bucketIds bs b) (.node c x)) ∧ x.length = sp.prod ∧
          ∀ t ∈ x, ∃ b s, t = .leaf (some (.ofBox b)) s) (List.range n) rs := h1.imp hrec
      refine ⟨fun c => ?_, ?_, ?_⟩
      · refine Counts.flat c (Ls := (List.range n).map (bucketIds bs)) ?_ ?_
        · rw [List.forall₂_map_left_iff]
          exact hf.imp fun b x h => h.1 none
        · intro id hid
          rw [List.countP_map]
          by_cases hm : id ∈ ids
          · obtain ⟨b, hb'⟩ := h2 id ((hit ids id).mpr hm) (Part.isFinite_iff'.mpr hid)
            have hlt := bucket_lt (hpos n (List.mem_cons_self ..)) hb'
            rw [if_pos hm]
            have : (List.range n).countP ((fun s => decide (id ∈ s)) ∘ bucketIds bs) = (List.range n).count b := by
              rw [List.count]
              apply List.countP_congr
              intro j _
              simp only [Function.comp, decide_eq_true_eq, beq_iff_eq, mem_bucketIds, h3]
              constructor
              · rintro ⟨_, _, h⟩
                rw [hb'] at h
                cases h
                rfl
              · rintro rfl
                exact ⟨(hit ids id).mpr hm, Part.isFinite_iff'.mpr hid, hb'⟩
            rw [this]
            exact List.count_eq_one_of_mem List.nodup_range (List.mem_range.mpr hlt)
          · rw [if_neg hm, List.countP_eq_zero]
            intro j _
            simp only [Function.comp, decide_eq_true_eq, mem_bucketIds, h3]
            rintro ⟨h, _⟩
            exact hm ((hit ids id).mp h)
      · rw [List.length_flatten, List.prod_cons]
        have : ∀ (as : List Nat) (rs : List (List (PTree (Chk D K)))), List.Forall₂ (fun _ x => x.length = sp.prod) as rs →
            (rs.map List.length).sum = as.length * sp.prod := by
          intro as rs h
          induction h with
          | nil => simp
          | cons h1 _ ih => rw [List.map_cons, List.sum_cons, h1, ih, List.length_cons]; ring
        rw [this _ _ (hf.imp fun b x h => h.2.1), List.length_range]
      · intro t ht
        obtain ⟨x, hx, htx⟩ := List.mem_flatten.mp ht
        have : ∀ (as : List Nat) (rs : List (List (PTree (Chk D K)))),
            List.Forall₂ (fun _ x => ∀ t ∈ x, ∃ b s, t = PTree.leaf (some (Chk.ofBox b)) s) as rs →
            ∀ x ∈ rs, ∀ t ∈ x, ∃ b s, t = PTree.leaf (some (Chk.ofBox b)) s := by
          intro as rs h
          induction h with
          | nil => simp
          | cons h1 _ ih =>
            intro x hx
            rcases List.mem_cons.mp hx with rfl | hx
            · exact h1
            · exact ih x hx
        exact this _ _ (hf.imp fun b x h => h.2.2) x hx t htx

theorem prod_modify (l : List Nat) (i : Nat) (h : i < l.length) : (l.modify i (· * 2)).prod = l.prod * 2 := by
  induction l generalizing i with
  | nil => simp at h
  | cons a l ih =>
    cases i with
    | zero => simp; ring
    | succ i => simp only [List.modify_succ_cons, List.prod_cons]; rw [ih i (by simpa using h)]; ring

theorem splitsLoop_succ (D n : Nat) (r : List Nat) : splitsLoop D (n + 1) r = (splitsLoop D n r).modify (n % D) (· * 2) := by
  rw [splitsLoop, List.range_succ, List.foldl_append]; rfl

theorem splitsLoop_spec (h0 : 0 < D) : ∀ n, (splitsLoop D n (List.replicate D 1)).length = D ∧
    (splitsLoop D n (List.replicate D 1)).prod = 2 ^ n ∧ ∀ m ∈ splitsLoop D n (List.replicate D 1), 0 < m
  | 0 => by simp [splitsLoop]
  | n + 1 => by
    obtain ⟨h1, h2, h3⟩ := splitsLoop_spec h0 n
    rw [splitsLoop_succ]
    refine ⟨by simp [h1], ?_, ?_⟩
    · rw [prod_modify _ _ (by rw [h1]; exact Nat.mod_lt _ h0), h2, pow_succ]
    · intro m hm
      obtain ⟨i, hi, rfl⟩ := List.getElem_of_mem hm
      rw [List.getElem_modify]
      have := h3 _ (List.getElem_mem (l := splitsLoop D n (List.replicate D 1)) (by simpa using hi))
      split_ifs <;> omega

/-- **C64 (number of leaves).** For a power of two, the tree of the k-way splitter has exactly that many leaves, as children of
its root. -/
theorem C64_leaves [FloorRing K] (hD : D ≤ 64) (h0 : 0 < D) (fl : K → K) (big tiny : K) (pts : Nat → Vec D K)
    (it : Finset Nat → List Nat) (hit : ∀ s i, i ∈ it s ↔ i ∈ s) (e : Nat) (he : e < 64) (bounds : Box D K) (ids : Finset Nat)
    (t : PTree (Chk D K)) (h : kway fl big tiny pts it (2 ^ e) bounds ids = .done t) :
    ∃ c l, t = .node c l ∧ l.length = 2 ^ e ∧ ∀ s ∈ l, s.isLeaf = true := by
  rw [kway, generateSplits, Misc.log2W_pow he] at h
  obtain ⟨h1, h2, h3⟩ := splitsLoop_spec h0 e
  cases hk : kwayRec fl big tiny pts it (splitsLoop D e (List.replicate D 1)) 0 ids with
  | ub => rw [hk] at h; simp at h
  | timeout => rw [hk] at h; simp at h
  | done l =>
    rw [hk, Res.bind_done] at h
    cases h
    obtain ⟨_, g2, g3⟩ := counts_kwayRec hD fl big tiny pts it hit _ _ _ _ h3 hk
    refine ⟨_, l, rfl, g2.trans h2, fun s hs => ?_⟩
    obtain ⟨b, s', rfl⟩ := g3 s hs
    rfl

theorem splitsLoop_get (h0 : 0 < D) : ∀ (n d : Nat), d < D →
    (splitsLoop D n (List.replicate D 1))[d]? = some (2 ^ ((n + D - 1 - d) / D))
  | 0, d, hd => by
    rw [splitsLoop]
    simp only [List.range_zero, List.foldl_nil, List.getElem?_replicate, hd, if_true]
    rw [Nat.div_eq_of_lt (by omega), pow_zero]
  | n + 1, d, hd => by
    rw [splitsLoop_succ, List.getElem?_modify, splitsLoop_get h0 n d hd]
    show some _ = some _
    congr 1
    beta_reduce
    have hdm := Nat.div_add_mod n D
    have hm := Nat.mod_lt n h0
    generalize n % D = m at *
    generalize n / D = q at *
    by_cases hmd : m = d
    · rw [if_pos hmd, ← pow_succ]
      congr 1
      have h1 : n + D - 1 - d = D * q + (D - 1) := by omega
      have h2 : n + 1 + D - 1 - d = D * (q + 1) := by rw [Nat.mul_add]; omega
      rw [h1, h2, Nat.mul_div_cancel_left _ h0, Nat.mul_add_div h0, Nat.div_eq_of_lt (by omega)]
    · rw [if_neg hmd]
      congr 1
      rcases Nat.lt_or_gt_of_ne hmd with hlt | hgt
      · have h1 : n + D - 1 - d = D * q + (m + D - 1 - d) := by omega
        have h2 : n + 1 + D - 1 - d = D * q + (m + D - d) := by omega
        rw [h1, h2, Nat.mul_add_div h0, Nat.mul_add_div h0, Nat.div_eq_of_lt (show m + D - 1 - d < D by omega),
          Nat.div_eq_of_lt (show m + D - d < D by omega)]
      · have h1 : n + D - 1 - d = D * (q + 1) + (m - 1 - d) := by rw [Nat.mul_add]; omega
        have h2 : n + 1 + D - 1 - d = D * (q + 1) + (m - d) := by rw [Nat.mul_add]; omega
        rw [h1, h2, Nat.mul_add_div h0, Nat.mul_add_div h0, Nat.div_eq_of_lt (show m - 1 - d < D by omega),
          Nat.div_eq_of_lt (show m - d < D by omega)]

/-- **C64 (splits).** `generateSplits(2^e)` has one entry per dimension; the exponents of the entries are `e / D` rounded up or
down, the larger ones first. -/
theorem C64_splits (h0 : 0 < D) (e : Nat) (he : e < 64) : (generateSplits D (2 ^ e)).length = D ∧
    ∀ d, d < D → (generateSplits D (2 ^ e))[d]? = some (2 ^ (if d < e % D then e / D + 1 else e / D)) := by
  rw [generateSplits, Misc.log2W_pow he]
  refine ⟨(splitsLoop_spec h0 e).1, fun d hd => ?_⟩
  rw [splitsLoop_get h0 e d hd]
  congr 2
  have hdm := Nat.div_add_mod e D
  have hm := Nat.mod_lt e h0
  generalize e % D = m at *
  generalize e / D = q at *
  split_ifs with h
  · have h1 : e + D - 1 - d = D * (q + 1) + (m - 1 - d) := by rw [Nat.mul_add]; omega
    rw [h1, Nat.mul_add_div h0, Nat.div_eq_of_lt (by omega), add_zero]
  · have h1 : e + D - 1 - d = D * q + (m + D - 1 - d) := by omega
    rw [h1, Nat.mul_add_div h0, Nat.div_eq_of_lt (by omega), add_zero]

example : generateSplits 3 16 = [4, 2, 2] := by decide +kernel

/-- **C63 (k-way splitter, partial).** Whatever the rounding to `float`: if the k-way splitter returns, the leaves of its tree
split the ids. It need not return (`C63_kway_violated`). -/
theorem C63_kway_partial [FloorRing K] (hD : D ≤ 64) (h0 : 0 < D) (fl : K → K) (big tiny : K) (pts : Nat → Vec D K)
    (it : Finset Nat → List Nat) (hit : ∀ s i, i ∈ it s ↔ i ∈ s) (e : Nat) (he : e < 64) (bounds : Box D K) (ids : Finset Nat)
    (t : PTree (Chk D K)) (h : kway fl big tiny pts it (2 ^ e) bounds ids = .done t) : Splits D ids t := by
  rw [kway, generateSplits, Misc.log2W_pow he] at h
  obtain ⟨h1, h2, h3⟩ := splitsLoop_spec h0 e
  cases hk : kwayRec fl big tiny pts it (splitsLoop D e (List.replicate D 1)) 0 ids with
  | ub => rw [hk] at h; simp at h
  | timeout => rw [hk] at h; simp at h
  | done l =>
    rw [hk, Res.bind_done] at h
    cases h
    exact ((counts_kwayRec hD fl big tiny pts it hit _ _ _ _ h3 hk).1 _).splits

/-- **C63 (k-way splitter, violated).** If all finite points have the same first coordinate (in particular for a single point),
the k-way splitter divides zero by zero and converts the result, which is not a number, to an integer: undefined. -/
theorem C63_kway_violated [FloorRing K] (hD : D ≤ 64) (h0 : 0 < D) (fl : K → K) (hfl : fl 0 = 0) (big tiny : K)
    (pts : Nat → Vec D K) (it : Finset Nat → List Nat) (hit : ∀ s i, i ∈ it s ↔ i ∈ s) (e : Nat) (he : e < 64)
    (bounds : Box D K) (ids : Finset Nat) (v : Nat) (hv : v ∈ ids) (hvf : v < 2 ^ 64 - 2 ^ D)
    (hbig : ∀ i ∈ ids, ∀ d, pts i d ≤ big) (htiny : ∀ d, tiny ≤ pts v d)
    (hsame : ∀ i ∈ ids, i < 2 ^ 64 - 2 ^ D → pts i ⟨0, h0⟩ = pts v ⟨0, h0⟩) :
    kway fl big tiny pts it (2 ^ e) bounds ids = .ub := by
  have hvf' : Part.isFinite D v = true := Part.isFinite_iff'.mpr hvf
  have ht := Part.C41_seq_partial big tiny pts (it ids) true ⟨v, (hit _ _).mpr hv, Or.inl hvf'⟩
    (fun i hi => hbig i ((hit _ _).mp hi)) (fun d => ⟨v, (hit _ _).mpr hv, Or.inl hvf', htiny d⟩) ⟨0, h0⟩
  have key : ∀ i, i ∈ it ids ∧ (Part.isFinite D i = true ∨ true = false) → pts i ⟨0, h0⟩ = pts v ⟨0, h0⟩ := by
    rintro i ⟨h1, h2 | h2⟩
    · exact hsame i ((hit _ _).mp h1) (Part.isFinite_iff'.mp h2)
    · cases h2
  have hmin : (Part.getPointStatsSeq big tiny pts (it ids) true).min ⟨0, h0⟩ = pts v ⟨0, h0⟩ := by
    obtain ⟨i, hi, h⟩ := ht.1.1
    rw [h, key i hi]
  have hmax : (Part.getPointStatsSeq big tiny pts (it ids) true).max ⟨0, h0⟩ = pts v ⟨0, h0⟩ := by
    obtain ⟨i, hi, h⟩ := ht.2.1.1
    rw [h, key i hi]
  have hbu : ∀ n c, bucket fl (pts v ⟨0, h0⟩) (pts v ⟨0, h0⟩) n c = .ub := by
    intro n c
    simp only [bucket]
    rw [if_pos (by rw [sub_self, hfl])]
  have hbs : ∀ n (c : Nat → K) (l : List Nat), v ∈ l →
      buckets (D := D) fl (pts v ⟨0, h0⟩) (pts v ⟨0, h0⟩) n c l = .ub := by
    intro n c l
    induction l with
    | nil => simp
    | cons a l ih =>
      intro hm
      rw [buckets]
      by_cases ha : Part.isFinite D a = true
      · rw [if_pos ha, hbu]; rfl
      · rw [if_neg ha]
        rcases List.mem_cons.mp hm with rfl | hm
        · exact absurd hvf' ha
        · exact ih hm
  have hz : 0 % D = 0 := Nat.zero_mod D
  obtain ⟨h1, _, _⟩ := splitsLoop_spec h0 e
  rw [kway, generateSplits, Misc.log2W_pow he]
  cases hs : splitsLoop D e (List.replicate D 1) with
  | nil => rw [hs] at h1; simp at h1; omega
  | cons n sp =>
    rw [kwayRec, dif_pos (by rw [hz]; exact h0)]
    simp only [hz, hmin, hmax]
    rw [hbs n _ _ ((hit _ _).mpr hv)]
    rfl

theorem bucket_ne_timeout [FloorRing K] (fl : K → K) (mn mx : K) (n : Nat) (c : K) : bucket fl mn mx n c ≠ .timeout := by
  unfold bucket
  simp only
  split_ifs <;> simp

theorem buckets_ub [FloorRing K] {fl : K → K} {mn mx : K} {n : Nat} {c : Nat → K} {v : Nat} (hf : Part.isFinite D v = true)
    (hv : bucket fl mn mx n (c v) = .ub) : ∀ l : List Nat, v ∈ l → buckets (D := D) fl mn mx n c l = .ub := by
  intro l
  induction l with
  | nil => simp
  | cons a l ih =>
    intro hm
    rw [buckets]
    by_cases ha : Part.isFinite D a = true
    · rw [if_pos ha]
      cases hb : bucket fl mn mx n (c a) with
      | ub => rfl
      | timeout => exact absurd hb (bucket_ne_timeout _ _ _ _ _)
      | done b =>
        rcases List.mem_cons.mp hm with rfl | hm
        · rw [hv] at hb; cases hb
        · rw [Res.bind_done, ih hm]; rfl
    · rw [if_neg ha]
      rcases List.mem_cons.mp hm with rfl | hm
      · exact absurd hf ha
      · exact ih hm

/-- **C63 (k-way splitter, violated).** If the smallest first coordinate is rounded up when it is converted to `float`, the
point with this coordinate gets a negative position, and the conversion of minus one to an unsigned integer is undefined.
(`hneg`: rounding keeps negative numbers negative, as it does unless there is an underflow.) -/
theorem C63_kway_rounding_violated [IsStrictOrderedRing K] [FloorRing K] (hD : D ≤ 64) (h0 : 0 < D) (fl : K → K)
    (hneg : ∀ x, x < 0 → fl x < 0)
    (big tiny : K) (pts : Nat → Vec D K) (it : Finset Nat → List Nat) (hit : ∀ s i, i ∈ it s ↔ i ∈ s) (e : Nat) (he : e < 64)
    (bounds : Box D K) (ids : Finset Nat) (v w : Nat) (hv : v ∈ ids) (hvf : v < 2 ^ 64 - 2 ^ D) (hw : w ∈ ids)
    (hwf : w < 2 ^ 64 - 2 ^ D) (hbig : ∀ i ∈ ids, ∀ d, pts i d ≤ big) (htiny : ∀ d, tiny ≤ pts v d)
    (hmm : ∀ i ∈ ids, i < 2 ^ 64 - 2 ^ D → pts v ⟨0, h0⟩ ≤ pts i ⟨0, h0⟩ ∧ pts i ⟨0, h0⟩ ≤ pts w ⟨0, h0⟩)
    (hup : pts v ⟨0, h0⟩ < fl (pts v ⟨0, h0⟩)) (hd : 0 < fl (fl (pts w ⟨0, h0⟩) - fl (pts v ⟨0, h0⟩))) :
    kway fl big tiny pts it (2 ^ e) bounds ids = .ub := by
  have hvf' : Part.isFinite D v = true := Part.isFinite_iff'.mpr hvf
  have hwf' : Part.isFinite D w = true := Part.isFinite_iff'.mpr hwf
  have ht := Part.C41_seq_partial big tiny pts (it ids) true ⟨v, (hit _ _).mpr hv, Or.inl hvf'⟩
    (fun i hi => hbig i ((hit _ _).mp hi)) (fun d => ⟨v, (hit _ _).mpr hv, Or.inl hvf', htiny d⟩) ⟨0, h0⟩
  have key : ∀ i, i ∈ it ids ∧ (Part.isFinite D i = true ∨ true = false) →
      pts v ⟨0, h0⟩ ≤ pts i ⟨0, h0⟩ ∧ pts i ⟨0, h0⟩ ≤ pts w ⟨0, h0⟩ := by
    rintro i ⟨h1, h2 | h2⟩
    · exact hmm i ((hit _ _).mp h1) (Part.isFinite_iff'.mp h2)
    · cases h2
  have hmin : (Part.getPointStatsSeq big tiny pts (it ids) true).min ⟨0, h0⟩ = pts v ⟨0, h0⟩ := by
    refine le_antisymm (ht.1.2 ⟨v, ⟨(hit _ _).mpr hv, Or.inl hvf'⟩, rfl⟩) ?_
    obtain ⟨i, hi, h⟩ := ht.1.1
    rw [h]
    exact (key i hi).1
  have hmax : (Part.getPointStatsSeq big tiny pts (it ids) true).max ⟨0, h0⟩ = pts w ⟨0, h0⟩ := by
    refine le_antisymm ?_ (ht.2.1.2 ⟨w, ⟨(hit _ _).mpr hw, Or.inl hwf'⟩, rfl⟩)
    obtain ⟨i, hi, h⟩ := ht.2.1.1
    rw [h]
    exact (key i hi).2
  have hz : 0 % D = 0 := Nat.zero_mod D
  obtain ⟨h1, _, h3⟩ := splitsLoop_spec h0 e
  rw [kway, generateSplits, Misc.log2W_pow he]
  cases hs : splitsLoop D e (List.replicate D 1) with
  | nil => rw [hs] at h1; simp at h1; omega
  | cons n sp =>
    have hn : 0 < n := h3 n (by rw [hs]; exact List.mem_cons_self ..)
    rw [kwayRec, dif_pos (by rw [hz]; exact h0)]
    simp only [hz, hmin, hmax]
    have hb : bucket fl (pts v ⟨0, h0⟩) (pts w ⟨0, h0⟩) n (pts v ⟨0, h0⟩) = .ub := by
      unfold bucket
      simp only
      rw [if_neg (ne_of_gt hd), if_neg]
      rintro ⟨h, _⟩
      have h1 : (pts v ⟨0, h0⟩ - fl (pts v ⟨0, h0⟩)) / fl (fl (pts w ⟨0, h0⟩) - fl (pts v ⟨0, h0⟩)) < 0 :=
        div_neg_of_neg_of_pos (sub_neg.mpr hup) hd
      have h2 := hneg _ (mul_neg_of_neg_of_pos (hneg _ h1) (show (0 : K) < (n : K) by exact_mod_cast hn))
      exact absurd h2 (not_lt.mpr (Int.floor_nonneg.mp h))
    rw [buckets_ub hvf' hb _ ((hit _ _).mpr hv)]
    rfl

end Build
end Verif
