import Verif.Props.LBBuild
import Mathlib.Tactic.FinCases

/-!
# C80: the load-balanced triangulator with each of the partitioners
-/
namespace Verif
namespace DC
open Del Euc PTree Build

section
variable {K : Type} [Field K] [LinearOrder K] [IsStrictOrderedRing K]
variable {D : Nat} {pts : Nat → Vec D K} {h : Nat → K} {S : Finset Nat} {t : PTree (Chk D K)}

/-- What C80 needs of the tree of a partitioner; `H` bounds the length of its paths. -/
structure Ready (pts : Nat → Vec D K) (S : Finset Nat) (H : Nat) (t : PTree (Chk D K)) : Prop where
  splits : Splits D S t
  within : t.collectIds ⊆ S
  covered : Covered pts t
  sep : Separated pts t
  height : ∀ p s, sub t p = some s → p.length ≤ H
  shape : Shape t
  root : t.chk ≠ none

theorem infPts_sub (hD : D ≤ 64) (hs : Scene D pts S) : HasInf D S := hasInf_of hD hs.inf

theorem ready_simple (hD : D ≤ 64) (k0 : Fin D) (bounds : Box D K) (hs : Scene D pts S) (hb : InBox pts bounds S) :
    Ready pts S 1 (simple k0 pts bounds S) where
  splits := C63_simple hD k0 pts bounds S
  within := within_node fun t ht => by
    simp only [List.mem_cons, List.not_mem_nil, or_false] at ht
    rcases ht with rfl | rfl <;> exact addInf_sub hD select_sub (infPts_sub hD hs)
  covered := (C82_simple hD k0 pts bounds S hb).1
  sep := C83_simple hD k0 pts bounds S hb
  height := paths_node fun t ht => by
    simp only [List.mem_cons, List.not_mem_nil, or_false] at ht
    rcases ht with rfl | rfl <;> exact paths_leaf
  shape := shape_node (by simp) (by simp) fun t ht => by
    simp only [List.mem_cons, List.not_mem_nil, or_false] at ht
    rcases ht with rfl | rfl <;> exact shape_leaf
  root := by simp [simple, PTree.chk]

theorem ready_binary (hD : D ≤ 64) (cutoff : Nat) (cut : List Bool → Box D K → Fin D × K) (r : Nat) (bounds : Box D K)
    (hs : Scene D pts S) (hb : InBox pts bounds S) : Ready pts S r (binary cutoff pts cut r [] bounds S) where
  splits := C63_binary hD cutoff pts cut r bounds S (infPts_sub hD hs)
  within := within_binary hD cutoff pts cut (infPts_sub hD hs) r [] bounds S (Finset.Subset.refl _)
  covered := (C82_binary hD cutoff pts cut r bounds S (infPts_sub hD hs) hb).1
  sep := C83_binary hD cutoff pts cut r bounds S (infPts_sub hD hs) hb
  height := (shape_binary cutoff pts cut r [] bounds S).2
  shape := (shape_binary cutoff pts cut r [] bounds S).1
  root := by rw [chk_binary]; simp

theorem ready_hyperplane (hD : D ≤ 64) (slack : K) (hsl : 0 < slack) (plane : List Bool → Vec D K × K)
    (hn : ∀ p, ∑ i, (plane p).1 i * (plane p).1 i ≤ 1) (n H : Nat) (hH : n < 2 ^ (H + 1)) (bounds : Box D K)
    (hs : Scene D pts S) : Ready pts S H (hyperplane slack pts plane n bounds S) where
  splits := C63_hyperplane hD slack pts plane n bounds S (infPts_sub hD hs)
  within := within_hyper hD slack pts bounds plane (infPts_sub hD hs) n [] _ S (Finset.Subset.refl _)
  covered := (C82_hyperplane hD slack hsl pts plane hn n bounds S (infPts_sub hD hs)).1
  sep := C83_hyperplane hD slack pts plane n bounds S (infPts_sub hD hs)
  height := (shape_hyper slack pts bounds plane n [] _ S).2 H hH
  shape := (shape_hyper slack pts bounds plane n [] _ S).1
  root := by rw [hyperplane, chk_hyper]; simp

theorem ready_old (hD : D ≤ 64) (h0 : 0 < D) (cutoff : Nat) (sp : Part.Splitter) (big tiny : K)
    (split : Nat → Finset Nat → Option (List (Part.Partition D K)))
    (hsp : ∀ n S ps, split n S = some ps → sp.Parts big tiny pts n S ps) (r : Nat) (bounds : Box D K)
    (hs : Scene D pts S) (hb : InBox pts bounds S) (ht : old cutoff split r bounds S 1 = some t) :
    Ready pts S (r + 1) t := by
  have hsh := shape_old cutoff split (fun n S ps hp => ⟨(hsp n S ps hp).splits hD, (hsp n S ps hp).two_le hD h0⟩)
    (infPts_sub hD hs) hs.ids r bounds S 1 t (Finset.Subset.refl _) ht
  exact {
    splits := C63_old_splitter hD cutoff sp big tiny pts split hsp r bounds S t (infPts_sub hD hs) ht
    within := hsh.2.2
    covered := (C82_old hD cutoff sp big tiny pts split hsp r bounds S t (infPts_sub hD hs) hb ht).1
    sep := C83_old hD cutoff sp big tiny pts split hsp r bounds S t (infPts_sub hD hs) ht
    height := hsh.2.1
    shape := hsh.1
    root := by rw [chk_old _ _ _ _ _ _ _ ht]; simp }

/-- **C83 (k-way splitter).** With a monotone rounding that keeps zero and does not take the buckets out of the range of
`int`, the parts of the k-way splitter are separated. -/
theorem C83_kway [FloorRing K] (hD : D ≤ 64) (h0 : 0 < D) (fl : K → K) (hfl : Monotone fl) (hz : fl 0 = 0) (big tiny : K)
    (it : Finset Nat → List Nat) (hit : ∀ s i, i ∈ it s ↔ i ∈ s) (e : Nat) (he : e < 64) (bounds : Box D K)
    (hw : ∀ f, f ≤ e → NoWrap fl (2 ^ f)) (hS : HasInf D S)
    (ht : kway fl big tiny pts it (2 ^ e) bounds S = .done t) : Separated pts t ∧ t.collectIds ⊆ S := by
  have hpow : ∀ n ∈ generateSplits D (2 ^ e), ∃ f, f ≤ e ∧ n = 2 ^ f := by
    intro n hn
    obtain ⟨h1, h2⟩ := C64_splits h0 e he
    obtain ⟨d, hd, rfl⟩ := List.getElem_of_mem hn
    have := h2 d (by rw [← h1]; exact hd)
    rw [List.getElem?_eq_getElem hd] at this
    refine ⟨_, ?_, Option.some.inj this⟩
    split_ifs with hlt
    · have h3 : e = D * (e / D) + e % D := (Nat.div_add_mod e D).symm
      have h4 : e / D ≤ D * (e / D) := Nat.le_mul_of_pos_left _ h0
      omega
    · exact Nat.div_le_self _ _
  rw [kway] at ht
  cases hk : kwayRec fl big tiny pts it (generateSplits D (2 ^ e)) 0 S with
  | ub => rw [hk] at ht; simp at ht
  | timeout => rw [hk] at ht; simp at ht
  | done l =>
    rw [hk, Res.bind_done] at ht
    cases ht
    obtain ⟨h1, h2⟩ := separated_kwayRec hD fl hfl hz big tiny pts it hit hS _ _ _ _
      (fun n hn => by obtain ⟨f, _, rfl⟩ := hpow n hn; exact Nat.pow_pos (by omega))
      (fun n hn => by obtain ⟨f, hf, rfl⟩ := hpow n hn; exact hw f hf) (Finset.Subset.refl _) hk
    refine ⟨separated_node h1 fun t ht => ?_, within_node h2⟩
    obtain ⟨_, _, h3⟩ := counts_kwayRec hD fl big tiny pts it hit _ _ _ _
      (fun n hn => by obtain ⟨f, _, rfl⟩ := hpow n hn; exact Nat.pow_pos (by omega)) hk
    obtain ⟨b, s, rfl⟩ := h3 t ht
    exact separated_leaf

theorem ready_kway [FloorRing K] (hD : D ≤ 64) (h0 : 0 < D) (fl : K → K) (hfl : Monotone fl) (hz : fl 0 = 0) (big tiny : K)
    (it : Finset Nat → List Nat) (hit : ∀ s i, i ∈ it s ↔ i ∈ s) (e : Nat) (he : e < 64) (bounds : Box D K)
    (hw : ∀ f, f ≤ e → NoWrap fl (2 ^ f)) (hs : Scene D pts S)
    (ht : kway fl big tiny pts it (2 ^ e) bounds S = .done t) : Ready pts S 1 t := by
  obtain ⟨h1, h2⟩ := C83_kway hD h0 fl hfl hz big tiny it hit e he bounds hw (infPts_sub hD hs) ht
  have h3 := C82_kway hD fl big tiny pts it hit (2 ^ e) bounds S t ht
  have h4 := C63_kway_partial hD h0 fl big tiny pts it hit e he bounds S t ht
  obtain ⟨c, l, rfl, g1, g2⟩ := C64_leaves hD h0 fl big tiny pts it hit e he bounds S t ht
  have g3 : ∀ t ∈ l, ∃ c ids, t = PTree.leaf c ids := by
    intro t ht
    have := g2 t ht
    cases t with
    | leaf c ids => exact ⟨c, ids, rfl⟩
    | node c l => simp [isLeaf] at this
  exact {
    splits := h4
    within := h2
    covered := h3.1
    sep := h1
    height := paths_node fun t ht => by obtain ⟨c, ids, rfl⟩ := g3 t ht; exact paths_leaf
    shape := shape_node (by rintro rfl; have := Nat.pow_pos (n := e) (show 0 < 2 by omega); simp at g1; omega) (fun t' ht' => g3 t' (by rw [ht']; simp))
      fun t ht => by obtain ⟨c, ids, rfl⟩ := g3 t ht; exact shape_leaf
    root := h3.2 [] _ (sub_nil _) }

theorem Ready.good {H : Nat} (hr : Ready pts S H t) (h2 : TwoFin D t) : GoodTree pts S t :=
  ⟨hr.splits, hr.within, hr.covered, hr.sep, h2⟩

/-- The triangulator returns for this tree, and everything it can return is a Delaunay triangulation of all points. -/
def LBCorrect (hash : Nat → BitVec 32) (depth cutoff : Nat) (parBase parEdge : Bool) (seq : Finset Nat → Tri → Prop)
    (big tiny : K) (pts : Nat → Vec D K) (cs : List Nat → Sphere D K) (S : Finset Nat) (t : PTree (Chk D K)) : Prop :=
  (∃ T, LBTri (lbParams hash depth cutoff parBase parEdge seq big tiny pts cs) 1 t T) ∧
  ∀ T, LBTri (lbParams hash depth cutoff parBase parEdge seq big tiny pts cs) 1 t T → Delaunay D pts S T

/-- The sequential base triangulator returns Delaunay triangulations with fresh ids, breaking ties in a fixed way. -/
def SeqOk (pts : Nat → Vec D K) (seq : Finset Nat → Tri → Prop) (S : Finset Nat) : Prop :=
  ∃ h, Tie pts h S ∧ BaseOk pts h seq S ∧
    ∀ V (used : Finset Nat), infPts D ⊆ V → V ⊆ S → ∃ T, seq V T ∧ Disjoint T.range used

/-- **C80 (end to end).** For a tree that is ready for the triangulator and has two non-empty parts wherever it has several:
the triangulator returns, and everything it can return is a Delaunay triangulation of all points. `C80_simple`, `C80_binary`,
`C80_hyperplane`, `C80_old`, `C80_kway` and `C80_flat` are the cases of the partitioners. -/
theorem C80_run {H depth cutoff : Nat} {parBase parEdge : Bool} {seq : Finset Nat → Tri → Prop} {big tiny : K}
    {cs : List Nat → Sphere D K} (hash : Nat → BitVec 32) (hr : Ready pts S H t) (h2 : TwoFin D t) (hs : Scene D pts S)
    (hq : LBSettingOk depth cutoff parBase parEdge big tiny pts cs S H) (hb : SeqOk pts seq S) :
    LBCorrect hash depth cutoff parBase parEdge seq big tiny pts cs S t := by
  obtain ⟨h, htie, hb, hfresh⟩ := hb
  exact ⟨C80_returns hs htie (hr.good h2) hr.height hq hb hfresh hr.root hr.shape,
    fun _ hT => C80_delaunay hs htie (hr.good h2) hr.height hq hb hT⟩

/-! ### Flattened trees -/

theorem diverge {C : Type} {t : PTree C} : ∀ {p q : List Nat} {c c' : Option C} {ids ids' : Finset Nat}, p ≠ q →
    sub t p = some (leaf c ids) → sub t q = some (leaf c' ids') →
    ∃ (r : List Nat) (cn : Option C) (l : List (PTree C)) (i j : Nat) (a b : PTree C) (p' q' : List Nat), sub t r = some (node cn l) ∧ i ≠ j ∧ l[i]? = some a ∧ l[j]? = some b ∧
      sub a p' = some (leaf c ids) ∧ sub b q' = some (leaf c' ids') := by
  intro p
  induction p generalizing t with
  | nil =>
    intro q c c' ids ids' hne hp hq
    rw [sub_nil] at hp
    cases hp
    cases q with
    | nil => exact absurd rfl hne
    | cons j q => simp at hq
  | cons i p ih =>
    intro q c c' ids ids' hne hp hq
    cases t with
    | leaf c ids => simp at hp
    | node cn l =>
      cases q with
      | nil => rw [sub_nil] at hq; simp at hq
      | cons j q =>
        rw [sub_node] at hp hq
        cases ha : l[i]? with
        | none => rw [ha] at hp; simp at hp
        | some a =>
          cases hb : l[j]? with
          | none => rw [hb] at hq; simp at hq
          | some b =>
            rw [ha, Option.bind_some] at hp
            rw [hb, Option.bind_some] at hq
            by_cases hij : i = j
            · subst hij
              rw [ha] at hb
              cases hb
              obtain ⟨r, cn', l', i', j', a', b', p', q', h1, h2⟩ := ih (q := q) (by rintro rfl; exact hne rfl) hp hq
              exact ⟨i :: r, cn', l', i', j', a', b', p', q', by rw [sub_node, ha]; exact h1, h2⟩
            · exact ⟨[], cn, l, i, j, a, b, p, q, sub_nil _, hij, ha, hb, hp, hq⟩

theorem flatten_get {C : Type} (c : Option C) (l : List (PTree C)) : ∃ (l' : List (PTree C)) (paths : List (List Nat)),
    flatten (node c l) = node c l' ∧ paths.Nodup ∧ l'.length = paths.length ∧
    (∀ p, p ∈ paths ↔ ∃ c' ids, sub (node c l) p = some (leaf c' ids)) ∧
    ∀ (i : Nat) (p : List Nat) (s : PTree C), paths[i]? = some p → l'[i]? = some s → sub (node c l) p = some s := by
  obtain ⟨l', paths, h1, h2, h3, h4⟩ := C62_flatten c l
  refine ⟨l', paths, h1, ?_, by simpa using congrArg List.length h4, h3, ?_⟩
  · refine h2.imp fun {a b} hab heq => ?_
    subst heq
    have : ∀ x : List Nat, ¬ List.Lex (· < ·) x x := by
      intro x
      induction x with
      | nil => intro h; cases h
      | cons y x ih =>
        intro h
        cases h with
        | cons h => exact ih h
        | rel h => exact lt_irrefl _ h
    exact this a hab
  · intro i p s hp hs
    have := congrArg (fun l => l[i]?) h4
    simp only [List.getElem?_map, hp, hs, Option.map_some, Option.some.injEq] at this
    exact this.symm

/-- Flattening a tree that is ready keeps it ready. -/
theorem Ready.flatten {H : Nat} (hr : Ready pts S H t) (h2 : TwoFin D t) : Ready pts S 1 t.flatten ∧ TwoFin D t.flatten := by
  cases t with
  | leaf c ids =>
    rw [C62_flatten_leaf]
    exact ⟨{ hr with height := paths_leaf }, h2⟩
  | node c l =>
    have hlf := Shape.leafy H hr.height hr.shape
    obtain ⟨l', paths, e, hnd, hlen, hmem, hget⟩ := flatten_get c l
    rw [e]
    -- the children are the leaves
    have hch : ∀ (i : Nat) (s : PTree (Chk D K)), l'[i]? = some s → ∃ p c' ids, paths[i]? = some p ∧ s = leaf c' ids ∧ sub (node c l) p = some (leaf c' ids) := by
      intro i s hs
      obtain ⟨hi, _⟩ := List.getElem?_eq_some_iff.mp hs
      have hp : paths[i]? = some (paths[i]'(by omega)) := List.getElem?_eq_getElem _
      have h1 := hget i _ s hp hs
      obtain ⟨c', ids, h3⟩ := (hmem _).mp (List.getElem_mem (l := paths) (by omega : i < paths.length))
      rw [h3] at h1
      cases h1
      exact ⟨_, c', ids, hp, rfl, h3⟩
    have hmem' : ∀ s ∈ l', ∃ p c' ids, s = leaf c' ids ∧ sub (node c l) p = some (leaf c' ids) := by
      intro s hs
      obtain ⟨i, hi⟩ := List.mem_iff_getElem?.mp hs
      obtain ⟨p, c', ids, _, h3, h4⟩ := hch i s hi
      exact ⟨p, c', ids, h3, h4⟩
    have hleaf : ∀ p c' ids, sub (node c l') p = some (leaf c' ids) → ∃ (i : Nat) (q : List Nat), p = [i] ∧ l'[i]? = some (leaf c' ids) ∧ paths[i]? = some q ∧
        sub (node c l) q = some (leaf c' ids) := by
      intro p c' ids hp
      cases p with
      | nil => rw [sub_nil] at hp; simp at hp
      | cons i p =>
        rw [sub_node] at hp
        cases hi : l'[i]? with
        | none => rw [hi] at hp; simp at hp
        | some s =>
          obtain ⟨q, c1, ids1, g1, rfl, g3⟩ := hch i s hi
          rw [hi, Option.bind_some] at hp
          cases p with
          | nil => rw [sub_nil] at hp; cases hp; exact ⟨i, q, rfl, hi, g1, g3⟩
          | cons j p => simp at hp
    have hpos : ∀ q c' ids, sub (node c l) q = some (leaf c' ids) → ∃ i : Nat, paths[i]? = some q ∧ l'[i]? = some (leaf c' ids) := by
      intro q c' ids hq
      obtain ⟨i, hi⟩ := List.mem_iff_getElem?.mp ((hmem q).mpr ⟨c', ids, hq⟩)
      obtain ⟨hi', _⟩ := List.getElem?_eq_some_iff.mp hi
      have hl : l'[i]? = some (l'[i]'(by omega)) := List.getElem?_eq_getElem _
      refine ⟨i, hi, ?_⟩
      rw [hl, ← hget i q _ hi hl, hq]
    have huniq : ∀ (i j : Nat) (q : List Nat), paths[i]? = some q → paths[j]? = some q → i = j := by
      intro i j q hi hj
      obtain ⟨hi', _⟩ := List.getElem?_eq_some_iff.mp hi
      exact (List.getElem?_inj hi' hnd).mp (hi.trans hj.symm)
    refine ⟨?_, ?_⟩
    · exact {
        splits := by
          refine ⟨fun id hf hid => ?_, fun p c' ids hp => ?_⟩
          · obtain ⟨q, ⟨c', ids, g1, g2⟩, g3⟩ := hr.splits.1 id hf hid
            obtain ⟨i, hi, hi'⟩ := hpos q c' ids g1
            refine ⟨[i], ⟨c', ids, by rw [sub_node, hi']; rfl, g2⟩, ?_⟩
            rintro p ⟨c1, ids1, k1, k2⟩
            obtain ⟨j, q', rfl, _, k4, k5⟩ := hleaf p c1 ids1 k1
            have := g3 q' ⟨c1, ids1, k5, k2⟩
            subst this
            rw [huniq j i q' k4 hi]
          · obtain ⟨i, q, rfl, _, _, g3⟩ := hleaf p c' ids hp
            exact hr.splits.2 q c' ids g3
        within := within_node fun s hs => by
          obtain ⟨p, c', ids, rfl, h4⟩ := hmem' s hs
          exact (collect_sub h4).trans hr.within
        covered := covered_node fun s hs => by
          obtain ⟨p, c', ids, rfl, h4⟩ := hmem' s hs
          exact ⟨hr.covered p _ (by rintro rfl; rw [sub_nil] at h4; simp at h4) h4, covered_leaf⟩
        sep := separated_node (List.pairwise_iff_getElem.mpr fun i j hi hj hij => by
            obtain ⟨p, c1, ids1, g1, g2, g3⟩ := hch i _ (List.getElem?_eq_getElem hi)
            obtain ⟨q, c2, ids2, k1, k2, k3⟩ := hch j _ (List.getElem?_eq_getElem hj)
            have hpq : p ≠ q := by
              rintro rfl
              have := huniq i j p g1 k1
              omega
            obtain ⟨r, cn, l0, i', j', a, b, p', q', m1, m2, m3, m4, m5, m6⟩ := diverge hpq g3 k3
            have hl0 : 1 < l0.length := by
              have h3 := (List.getElem?_eq_some_iff.mp m3).1
              have h4 := (List.getElem?_eq_some_iff.mp m4).1
              omega
            rw [g2, k2]
            refine Sep2.mono (A := a.collectIds) (B := b.collectIds) ⟨?_, ?_⟩
              (fun v hv _ => collect_sub m5 hv) (fun v hv _ => collect_sub m6 hv)
            · exact hr.sep r cn l0 m1 hl0 i' j' a b m3 m4 m2
            · exact hr.sep r cn l0 m1 hl0 j' i' b a m4 m3 (Ne.symm m2))
          fun s hs => by
            obtain ⟨p, c', ids, rfl, h4⟩ := hmem' s hs
            exact separated_leaf
        height := paths_node fun s hs => by
          obtain ⟨p, c', ids, rfl, h4⟩ := hmem' s hs
          exact paths_leaf
        shape := shape_node (by
            rintro rfl
            obtain ⟨q, c', ids, h1⟩ := hlf [] _ (sub_nil _)
            obtain ⟨i, _, hi⟩ := hpos q c' ids h1
            simp at hi)
          (fun s hs => by
            obtain ⟨p, c', ids, h3, _⟩ := hmem' s (by rw [hs]; simp)
            exact ⟨c', ids, h3⟩)
          fun s hs => by
            obtain ⟨p, c', ids, rfl, h4⟩ := hmem' s hs
            exact shape_leaf
        root := hr.root }
    · intro p cn l0 hp hl0
      cases p with
      | cons i p =>
        rw [sub_node] at hp
        cases hi : l'[i]? with
        | none => rw [hi] at hp; simp at hp
        | some s =>
          obtain ⟨q, c1, ids1, g1, rfl, g3⟩ := hch i s hi
          rw [hi, Option.bind_some] at hp
          cases p <;> simp at hp
      | nil =>
        rw [sub_nil] at hp
        cases hp
        obtain ⟨p, c1, ids1, g1, g2, g3⟩ := hch 0 _ (List.getElem?_eq_getElem (by omega))
        obtain ⟨q, c2, ids2, k1, k2, k3⟩ := hch 1 _ (List.getElem?_eq_getElem hl0)
        have hpq : p ≠ q := by
          rintro rfl
          have := huniq 0 1 p g1 k1
          omega
        obtain ⟨r, cn, l0, i', j', a, b, p', q', m1, m2, m3, m4, m5, m6⟩ := diverge hpq g3 k3
        have hl1 : 1 < l0.length := by
          have h3 := (List.getElem?_eq_some_iff.mp m3).1
          have h4 := (List.getElem?_eq_some_iff.mp m4).1
          omega
        obtain ⟨i, j, a, b, ha, hb, hij, ⟨v, hv, hvf⟩, w, hw, hwf⟩ := h2 r cn l0 m1 hl1
        have hsa : sub (node c l) (r ++ [i]) = some a := by rw [sub_append, m1, Option.bind_some, sub_node, ha]; simp
        have hsb : sub (node c l) (r ++ [j]) = some b := by rw [sub_append, m1, Option.bind_some, sub_node, hb]; simp
        obtain ⟨pa, idsa, ⟨ca, ka⟩, hva⟩ := (mem_collectIds a v).mp hv
        obtain ⟨pb, idsb, ⟨cb, kb⟩, hwb⟩ := (mem_collectIds b w).mp hw
        obtain ⟨x, hx, hx'⟩ := hpos (r ++ [i] ++ pa) ca idsa (by rw [sub_append, hsa]; exact ka)
        obtain ⟨y, hy, hy'⟩ := hpos (r ++ [j] ++ pb) cb idsb (by rw [sub_append, hsb]; exact kb)
        refine ⟨x, y, _, _, hx', hy', ?_, ⟨v, by rw [collectIds]; exact hva, hvf⟩, w, by rw [collectIds]; exact hwb, hwf⟩
        rintro rfl
        rw [hx] at hy
        simp [hij] at hy

/-! ### The partitioners -/

section
variable {depth cutoff : Nat} {parBase parEdge : Bool} {seq : Finset Nat → Tri → Prop} {big tiny : K}
  {cs : List Nat → Sphere D K} (hash : Nat → BitVec 32)

/-- **C80 (simple).** The bounds contain the points, and there are points on both sides of the middle. -/
theorem C80_simple (k0 : Fin D) (bounds : Box D K) (hs : Scene D pts S) (hb : InBox pts bounds S)
    (hlo : ∃ v ∈ S, v < 2 ^ 64 - 2 ^ D ∧ pts v k0 ≤ (bounds.low k0 + bounds.high k0) / 2)
    (hhi : ∃ v ∈ S, v < 2 ^ 64 - 2 ^ D ∧ (bounds.low k0 + bounds.high k0) / 2 < pts v k0)
    (hq : LBSettingOk depth cutoff parBase parEdge big tiny pts cs S 1) (hseq : SeqOk pts seq S) :
    LBCorrect hash depth cutoff parBase parEdge seq big tiny pts cs S (simple k0 pts bounds S) := by
  refine C80_run hash (ready_simple hq.dim k0 bounds hs hb) ?_ hs hq hseq
  intro p c l hp hl
  cases p with
  | cons i p =>
    rw [simple] at hp
    simp only [sub_node] at hp
    match i, hp with
    | 0, hp => cases p <;> simp at hp
    | 1, hp => cases p <;> simp at hp
    | i + 2, hp => simp at hp
  | nil =>
    rw [simple, sub_nil] at hp
    cases hp
    obtain ⟨v, hv, hvf, hv2⟩ := hlo
    obtain ⟨w, hw, hwf, hw2⟩ := hhi
    refine ⟨0, 1, _, _, rfl, rfl, by omega, ⟨v, ?_, hvf⟩, ⟨w, ?_, hwf⟩⟩
    · rw [collectIds, mem_addInf_fin hq.dim hvf, mem_select hvf, Box.C35_contains_point]
      refine ⟨hv, fun d => ⟨(hb v hv hvf d).1, ?_⟩⟩
      simp only [splitBox, Function.update_apply]
      split_ifs with hd
      · subst hd; exact hv2
      · exact (hb v hv hvf d).2
    · rw [collectIds, mem_addInf_fin hq.dim hwf, mem_select hwf, Bool.not_eq_true', ← Bool.not_eq_true, Box.C35_contains_point]
      refine ⟨hw, fun h => ?_⟩
      have := (h k0).2
      simp only [splitBox, Function.update_self] at this
      exact absurd hw2 (not_lt.mpr this)

/-- **C80 (box estimating).** Whatever the estimates. -/
theorem C80_binary (cut' : Nat) (cut : List Bool → Box D K → Fin D × K) (r : Nat) (bounds : Box D K)
    (hs : Scene D pts S) (hb : InBox pts bounds S) (h2 : TwoFin D (binary cut' pts cut r [] bounds S))
    (hq : LBSettingOk depth cutoff parBase parEdge big tiny pts cs S r) (hseq : SeqOk pts seq S) :
    LBCorrect hash depth cutoff parBase parEdge seq big tiny pts cs S (binary cut' pts cut r [] bounds S) :=
  C80_run hash (ready_binary hq.dim cut' cut r bounds hs hb) h2 hs hq hseq

/-- **C80 (hyperplanes).** Whatever the planes, if their normal vectors are not longer than one. -/
theorem C80_hyperplane (slack : K) (hsl : 0 < slack) (plane : List Bool → Vec D K × K)
    (hn : ∀ p, ∑ i, (plane p).1 i * (plane p).1 i ≤ 1) (n H : Nat) (hH : n < 2 ^ (H + 1)) (bounds : Box D K)
    (hs : Scene D pts S) (h2 : TwoFin D (hyperplane slack pts plane n bounds S))
    (hq : LBSettingOk depth cutoff parBase parEdge big tiny pts cs S H) (hseq : SeqOk pts seq S) :
    LBCorrect hash depth cutoff parBase parEdge seq big tiny pts cs S (hyperplane slack pts plane n bounds S) :=
  C80_run hash (ready_hyperplane hq.dim slack hsl plane hn n H hH bounds hs) h2 hs hq hseq

/-- **C80 (old partitioner).** With any of the four splitters, provided that the splitter returns. -/
theorem C80_old (h0 : 0 < D) (cut' : Nat) (sp : Part.Splitter) (big' tiny' : K)
    (split : Nat → Finset Nat → Option (List (Part.Partition D K)))
    (hsp : ∀ n S ps, split n S = some ps → sp.Parts big' tiny' pts n S ps) (r : Nat) (bounds : Box D K)
    (hs : Scene D pts S) (hb : InBox pts bounds S) (ht : old cut' split r bounds S 1 = some t) (h2 : TwoFin D t)
    (hq : LBSettingOk depth cutoff parBase parEdge big tiny pts cs S (r + 1)) (hseq : SeqOk pts seq S) :
    LBCorrect hash depth cutoff parBase parEdge seq big tiny pts cs S t :=
  C80_run hash (ready_old hq.dim h0 cut' sp big' tiny' split hsp r bounds hs hb ht) h2 hs hq hseq

/-- **C80 (k-way splitter).** For a monotone rounding, provided that the splitter returns (C63). -/
theorem C80_kway [FloorRing K] (h0 : 0 < D) (fl : K → K) (hfl : Monotone fl) (hz : fl 0 = 0) (big' tiny' : K)
    (it : Finset Nat → List Nat) (hit : ∀ s i, i ∈ it s ↔ i ∈ s) (e : Nat) (he : e < 64) (bounds : Box D K)
    (hw : ∀ f, f ≤ e → NoWrap fl (2 ^ f)) (hs : Scene D pts S)
    (ht : kway fl big' tiny' pts it (2 ^ e) bounds S = .done t) (h2 : TwoFin D t)
    (hq : LBSettingOk depth cutoff parBase parEdge big tiny pts cs S 1) (hseq : SeqOk pts seq S) :
    LBCorrect hash depth cutoff parBase parEdge seq big tiny pts cs S t :=
  C80_run hash (ready_kway hq.dim h0 fl hfl hz big' tiny' it hit e he bounds hw hs ht) h2 hs hq hseq

/-- **C80 (flat).** The result of flattening a tree that is ready. -/
theorem C80_flat {H : Nat} (hr : Ready pts S H t) (h2 : TwoFin D t) (hs : Scene D pts S)
    (hq : LBSettingOk depth cutoff parBase parEdge big tiny pts cs S 1) (hseq : SeqOk pts seq S) :
    LBCorrect hash depth cutoff parBase parEdge seq big tiny pts cs S t.flatten :=
  C80_run hash (hr.flatten h2).1 (hr.flatten h2).2 hs hq hseq

end

omit [IsStrictOrderedRing K] in
/-- **C80 (sampling bipartitioner, violated).** Whenever the bipartitioner splits at all, its tree has no checker at the root,
so the triangulator dereferences a null pointer and returns nothing. -/
theorem C80_bipart_violated (A : LBParams D K) (len : Nat) (cut' : Nat) (part : List Bool → Nat → Bool)
    (mkChk : Finset Nat → Chk D K) (n : Nat) (bounds : Box D K) (ids : Finset Nat) (hn : 1 < n) (hc : cut' < ids.card) :
    ¬ ∃ T, LBTri A len (bipart cut' part mkChk n [] bounds ids) T :=
  C80_null A len (C81_bipart_violated cut' part mkChk n bounds ids hn hc).1

end

/-! ### Sample -/

/-- The points of the sample with the infinite points of the constructor. -/
noncomputable def lbPts : Nat → Vec 2 ℝ := ctorPoints 100 1000000 (1 / 1000) samplePts [[4, 2], [], [1, 3]]

theorem lbScene : Scene 2 lbPts ({1, 2, 3, 4} ∪ infPts 2) := sampleInput.scene (by omega) sampleFar sampleInj

theorem lbPts_fin {v : Nat} (hf : v < 2 ^ 64 - 2 ^ 2) : lbPts v = samplePts v := ctor_finite (by omega) hf

theorem lb_fin {v : Nat} (hv : v ∈ ({1, 2, 3, 4} : Finset Nat) ∪ infPts 2) (hf : v < 2 ^ 64 - 2 ^ 2) :
    v = 1 ∨ v = 2 ∨ v = 3 ∨ v = 4 := by
  rcases Finset.mem_union.mp hv with h | h
  · simpa using h
  · obtain ⟨k, hk, rfl⟩ := exists_inf (by omega) h
    rw [Part.cINF] at hf
    omega

theorem lbSetting (parBase parEdge : Bool) (H : Nat) (hH : H ≤ 39) : LBSettingOk (K := ℝ) 3 5 parBase parEdge 1000000 (1 / 1000)
    lbPts (cs2 Real.sqrt lbPts) ({1, 2, 3, 4} ∪ infPts 2) H where
  dim := by omega
  circ := circumOk2 (fun x hx => ⟨Real.sqrt_nonneg x, Real.sq_sqrt hx⟩) _ _
  par := fun _ => ⟨⟨by omega, by omega, by norm_num, ⟨by omega, by
    intro d v hv w hw h
    simp only [lbPts_fin hv.2, lbPts_fin hw.2] at h
    rcases lb_fin hv.1 hv.2 with rfl | rfl | rfl | rfl <;> rcases lb_fin hw.1 hw.2 with rfl | rfl | rfl | rfl <;>
      fin_cases d <;> first | rfl | (exfalso; norm_num [samplePts] at h)⟩,
    sampleSetting.big, sampleSetting.tiny, sampleSetting.cs⟩, by omega⟩
  levels := by omega

theorem lbSeq : ∃ seq, SeqOk lbPts seq ({1, 2, 3, 4} ∪ infPts 2) := by
  obtain ⟨h, ht⟩ := Tie.exists lbScene.distinct
  obtain ⟨base, hb, hf⟩ := baseOk_exists lbScene ht
  exact ⟨base, h, ht, hb, hf⟩

theorem lbBox : InBox lbPts ⟨![0, 0], ![5, 20]⟩ ({1, 2, 3, 4} ∪ infPts 2) := by
  intro v hv hf d
  rw [lbPts_fin hf]
  rcases lb_fin hv hf with rfl | rfl | rfl | rfl <;> fin_cases d <;> norm_num [samplePts]

/-- The simple partitioner with the sample: all hypotheses of C80 hold, and the triangulator returns. -/
example (parBase parEdge : Bool) : ∃ seq T, LBCorrect (fun v => BitVec.ofNat 32 v) 3 5 parBase parEdge seq 1000000 (1 / 1000) lbPts
      (cs2 Real.sqrt lbPts) ({1, 2, 3, 4} ∪ infPts 2) (simple 0 lbPts ⟨![0, 0], ![5, 20]⟩ ({1, 2, 3, 4} ∪ infPts 2)) ∧
    Delaunay 2 lbPts ({1, 2, 3, 4} ∪ infPts 2) T := by
  obtain ⟨seq, hseq⟩ := lbSeq
  have h := C80_simple (fun v => BitVec.ofNat 32 v) 0 ⟨![0, 0], ![5, 20]⟩ lbScene lbBox
    ⟨1, by simp, by norm_num, by rw [lbPts_fin (by norm_num)]; norm_num [samplePts]⟩
    ⟨4, by simp, by norm_num, by rw [lbPts_fin (by norm_num)]; norm_num [samplePts]⟩ (lbSetting parBase parEdge 1 (by omega)) hseq
  obtain ⟨T, hT⟩ := h.1
  exact ⟨seq, T, h, h.2 T hT⟩

/-- Points 3 and 4 are on the positive side of the first plane, 1 and 2 on the other side. -/
theorem lb_twoFin_hyper : TwoFin 2 (hyperplane (1 / 1000000) lbPts (fun _ => (![1, 0], 5 / 2)) 2 ⟨![0, 0], ![5, 20]⟩
    ({1, 2, 3, 4} ∪ infPts 2)) := by
  intro p c l hp hl
  rw [hyperplane, hyper, if_pos (by omega)] at hp
  have hleaf : ∀ path chk ids, hyper (1 / 1000000) lbPts ⟨![0, 0], ![5, 20]⟩ (fun _ => (![1, 0], 5 / 2)) (2 / 2) path chk ids =
      leaf chk ids := by
    intro path chk ids
    rw [hyper, if_neg (by omega)]
  simp only [hleaf] at hp
  cases p with
  | cons i p =>
    simp only [sub_node] at hp
    match i, hp with
    | 0, hp => cases p <;> simp at hp
    | 1, hp => cases p <;> simp at hp
    | i + 2, hp => simp at hp
  | nil =>
    rw [sub_nil] at hp
    cases hp
    refine ⟨0, 1, _, _, rfl, rfl, by omega, ⟨4, ?_, by norm_num⟩, ⟨1, ?_, by norm_num⟩⟩
    · rw [collectIds, mem_addInf_fin (by omega) (by norm_num), Finset.mem_filter, Chk.distanceToPlane, Chk.dot_eq,
        lbPts_fin (by norm_num)]
      refine ⟨by simp, ?_⟩
      norm_num [samplePts]
    · rw [collectIds, mem_addInf_fin (by omega) (by norm_num), Finset.mem_filter, Chk.distanceToPlane, Chk.dot_eq,
        lbPts_fin (by norm_num)]
      refine ⟨by simp, ?_⟩
      norm_num [samplePts]

/-- The hyperplane partitioner, also with its tree flattened, with the sample. -/
example (parBase parEdge : Bool) : ∃ seq t, t = hyperplane (1 / 1000000) lbPts (fun _ => (![1, 0], 5 / 2)) 2 ⟨![0, 0], ![5, 20]⟩
      ({1, 2, 3, 4} ∪ infPts 2) ∧
    LBCorrect (fun v => BitVec.ofNat 32 v) 3 5 parBase parEdge seq 1000000 (1 / 1000) lbPts
      (cs2 Real.sqrt lbPts) ({1, 2, 3, 4} ∪ infPts 2) t ∧
    LBCorrect (fun v => BitVec.ofNat 32 v) 3 5 parBase parEdge seq 1000000 (1 / 1000) lbPts
      (cs2 Real.sqrt lbPts) ({1, 2, 3, 4} ∪ infPts 2) t.flatten := by
  obtain ⟨seq, hseq⟩ := lbSeq
  have hn : ∀ p : List Bool, ∑ i, ((fun _ => (![1, 0], 5 / 2)) p : Vec 2 ℝ × ℝ).1 i * ((fun _ => (![1, 0], 5 / 2)) p : Vec 2 ℝ × ℝ).1 i ≤ 1 := by
    intro p
    simp
  refine ⟨seq, _, rfl, C80_hyperplane _ _ (by norm_num) _ hn 2 1 (by omega) _ lbScene lb_twoFin_hyper (lbSetting _ _ 1 (by omega)) hseq,
    C80_flat _ (ready_hyperplane (by omega) _ (by norm_num) _ hn 2 1 (by omega) _ lbScene) lb_twoFin_hyper lbScene
      (lbSetting _ _ 1 (by omega)) hseq⟩

end DC
end Verif
