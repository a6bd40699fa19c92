import Verif.Model.Grid
import Verif.Props.Box
import Mathlib.Tactic.Linarith
import Mathlib.Tactic.FieldSimp
import Mathlib.Tactic.Ring

/-!
# The AABB tree as a set of cells

The boxes of all nodes have corners at multiples of the cell size. `Good n lo hi S`: node `n` has the box
`[lo, hi]` (in cells) and contains the cells `S`.
-/
namespace Verif
namespace AABB
open Grid
variable {D : Nat} {K : Type} [Field K] [LinearOrder K] [IsStrictOrderedRing K] [FloorRing K]

/-- Box with corners at multiples of the cell size. -/
def lbox (w : K) (lo hi : Index D) : Box D K := ⟨fun d => (lo d : K) * w, fun d => (hi d : K) * w⟩

omit [LinearOrder K] [IsStrictOrderedRing K] [FloorRing K] in
theorem boundsOf_eq (w : K) (i : Index D) : boundsOf w i = lbox w i (fun d => i d + 1) := by
  simp [boundsOf, lbox]

variable {w : K} (hw : 0 < w)
include hw

omit [FloorRing K] in
theorem mul_le_iff {a b : Int} : (a : K) * w ≤ (b : K) * w ↔ a ≤ b := by
  rw [mul_le_mul_iff_left₀ hw, Int.cast_le]

omit [FloorRing K] in
theorem mul_eq_iff {a b : Int} : (a : K) * w = (b : K) * w ↔ a = b := by
  rw [mul_left_inj' hw.ne', Int.cast_inj]

omit [FloorRing K] in
theorem lbox_contains {lo hi lo' hi' : Index D} :
    (lbox w lo hi).containsBox (lbox w lo' hi') = true ↔ ∀ d, lo d ≤ lo' d ∧ hi' d ≤ hi d := by
  simp only [Box.containsBox, Box.allDims_iff, decide_eq_true_eq, lbox, mul_le_iff hw]

omit [FloorRing K] in
theorem lbox_beq {lo hi lo' hi' : Index D} :
    (lbox w lo hi).beq (lbox w lo' hi') = true ↔ lo = lo' ∧ hi = hi' := by
  simp only [Box.beq, Box.allDims_iff, decide_eq_true_eq, lbox, mul_eq_iff hw, Bool.and_eq_true, funext_iff]

omit [FloorRing K] in
theorem contains_lbox {l : Bool} {cs : List (Node D K)} {lo hi lo' hi' : Index D} :
    (Node.mk (lbox w lo hi) l cs).contains (lbox w lo' hi') = true ↔ ∀ d, lo d ≤ lo' d ∧ hi' d ≤ hi d := by
  simp only [Node.contains, Node.box, Bool.or_eq_true, lbox_contains hw, lbox_beq hw]
  constructor
  · rintro (h | ⟨rfl, rfl⟩)
    · exact h
    · exact fun d => ⟨le_rfl, le_rfl⟩
  · exact Or.inl

/-- The middle in cells. -/
def midOf (lo hi : Index D) : Index D := fun d => (lo d + hi d) / 2

omit hw in
/-- Corners of the children of a split. -/
def slo (lo hi : Index D) (j : Nat) : Index D := fun d => if j.testBit d then (lo d + hi d) / 2 else lo d

omit hw in
def shi (lo hi : Index D) (j : Nat) : Index D := fun d => if j.testBit d then hi d else (lo d + hi d) / 2

theorem splitChild_eq (lo hi : Index D) (j : Nat) :
    Node.splitChild w (lbox w lo hi) j = .mk (lbox w (slo lo hi j) (shi lo hi j)) false [] := by
  have hmid : ∀ d, ⌊((lo d : K) * w + ((hi d : K) * w - (lo d : K) * w) / 2) / w⌋ = (lo d + hi d) / 2 := by
    intro d
    have : ((lo d : K) * w + ((hi d : K) * w - (lo d : K) * w) / 2) / w = ((lo d + hi d : Int) : K) / ((2 : Nat) : K) := by
      push_cast
      field_simp
      ring
    rw [this, Int.floor_div_natCast, Int.floor_intCast]
    rfl
  simp only [Node.splitChild, lbox, hmid, slo, shi]
  congr 2
  · funext d; split_ifs <;> rfl
  · funext d; split_ifs <;> rfl

omit hw

/-- Node of a single cell. -/
def leafNode (w : K) (k : Index D) : Node D K := .mk (lbox w k fun d => k d + 1) true []

/-- The cell `k` is inside of `[lo, hi]`. -/
def Inside (lo hi k : Index D) : Prop := ∀ d, lo d ≤ k d ∧ k d + 1 ≤ hi d

/-- Reachable nodes. -/
inductive Good (w : K) : Node D K → Index D → Index D → Finset (Index D) → Prop
  | leaf (k : Index D) : Good w (leafNode w k) k (fun d => k d + 1) {k}
  | flat (lo hi : Index D) (ks : List (Index D)) (hle : ∀ d, lo d ≤ hi d) (hnd : ks.Nodup)
      (hlen : ks.length ≤ 2 ^ D) (hin : ∀ k ∈ ks, Inside lo hi k)
      (hne : ∀ k ∈ ks, ¬ (lo = k ∧ hi = fun d => k d + 1)) :
      Good w (.mk (lbox w lo hi) false (ks.map (leafNode w))) lo hi ks.toFinset
  | split (lo hi : Index D) (ch : Fin (2 ^ D) → Node D K) (S : Fin (2 ^ D) → Finset (Index D))
      (hle : ∀ d, lo d ≤ hi d) (hbig : ∃ d, lo d + 2 ≤ hi d)
      (hch : ∀ j : Fin (2 ^ D), Good w (ch j) (slo lo hi j) (shi lo hi j) (S j)) :
      Good w (.mk (lbox w lo hi) false (List.ofFn ch)) lo hi (Finset.univ.biUnion S)

/-- Size of a box in cells. -/
def size (lo hi : Index D) : Nat := ∑ d, (hi d - lo d).toNat

theorem slo_le {lo hi : Index D} (hle : ∀ d, lo d ≤ hi d) (j : Nat) : ∀ d, slo lo hi j d ≤ shi lo hi j d := by
  intro d
  have := hle d
  simp only [slo, shi]
  split_ifs <;> omega

theorem size_split {lo hi : Index D} (hle : ∀ d, lo d ≤ hi d) (hbig : ∃ d, lo d + 2 ≤ hi d) (j : Nat) :
    size (slo lo hi j) (shi lo hi j) < size lo hi := by
  obtain ⟨d, hd⟩ := hbig
  refine Finset.sum_lt_sum (fun i _ => ?_) ⟨d, Finset.mem_univ _, ?_⟩
  · have := hle i
    simp only [slo, shi]
    split_ifs <;> omega
  · simp only [slo, shi]
    split_ifs <;> omega

theorem inside_split {lo hi k : Index D} (hle : ∀ d, lo d ≤ hi d) {j : Nat} (h : Inside (slo lo hi j) (shi lo hi j) k) :
    Inside lo hi k := by
  intro d
  have := h d
  have := hle d
  simp only [slo, shi] at *
  split_ifs at * <;> omega

/-- The child that contains a cell. -/
theorem exists_child {lo hi k : Index D} (h : Inside lo hi k) :
    ∃ j : Fin (2 ^ D), Inside (slo lo hi j) (shi lo hi j) k := by
  let x : Nat := Nat.ofBits fun d : Fin D => decide ((lo d + hi d) / 2 ≤ k d)
  refine ⟨⟨x, Nat.ofBits_lt_two_pow _⟩, fun d => ?_⟩
  have hb : x.testBit d = decide ((lo d + hi d) / 2 ≤ k d) := Nat.testBit_ofBits_lt _ _ d.isLt
  have := h d
  simp only [slo, shi, hb, decide_eq_true_eq]
  split_ifs <;> omega

theorem child_unique {lo hi k : Index D} {i j : Fin (2 ^ D)} (h1 : Inside (slo lo hi i) (shi lo hi i) k)
    (h2 : Inside (slo lo hi j) (shi lo hi j) k) : i = j := by
  apply Fin.ext
  apply Nat.eq_of_testBit_eq
  intro d
  by_cases hd : d < D
  · have a := h1 ⟨d, hd⟩
    have b := h2 ⟨d, hd⟩
    simp only [slo, shi] at a b
    cases hi' : (i : Nat).testBit d <;> cases hj' : (j : Nat).testBit d <;> simp only [hi', hj'] at a b ⊢ <;>
      simp at a b <;> omega
  · have hd' := Nat.pow_le_pow_right (n := 2) (by omega) (not_lt.mp hd)
    rw [Nat.testBit_lt_two_pow (i.isLt.trans_le hd'), Nat.testBit_lt_two_pow (j.isLt.trans_le hd')]

theorem Good.inside {n : Node D K} {lo hi : Index D} {S : Finset (Index D)} (h : Good w n lo hi S) :
    ∀ k ∈ S, Inside lo hi k := by
  induction h with
  | leaf k =>
    intro k' hk'
    obtain rfl := Finset.mem_singleton.mp hk'
    exact fun d => ⟨le_rfl, le_rfl⟩
  | flat lo hi ks _ _ _ hin _ => exact fun k hk => hin k (List.mem_toFinset.mp hk)
  | split lo hi ch S hle _ _ ih =>
    intro k hk
    obtain ⟨j, _, hj⟩ := Finset.mem_biUnion.mp hk
    exact inside_split hle (ih j k hj)

theorem Good.box {n : Node D K} {lo hi : Index D} {S : Finset (Index D)} (h : Good w n lo hi S) :
    n.box = lbox w lo hi ∧ ∀ d, lo d ≤ hi d := by
  cases h with
  | leaf k => exact ⟨rfl, fun d => by show lo d ≤ lo d + 1; omega⟩
  | flat lo hi ks hle => exact ⟨rfl, hle⟩
  | split lo hi ch S hle => exact ⟨rfl, hle⟩

theorem set_ofFn {α : Type} {n : Nat} (f : Fin n → α) (j : Fin n) (a : α) :
    (List.ofFn f).set j a = List.ofFn (Function.update f j a) := by
  apply List.ext_getElem
  · simp
  · intro i h1 h2
    rw [List.getElem_set, List.getElem_ofFn, List.getElem_ofFn]
    split_ifs with h
    · have : (⟨i, by simpa using h2⟩ : Fin n) = j := Fin.ext h.symm
      rw [this, Function.update_self]
    · rw [Function.update_of_ne]
      intro e
      exact h (by rw [← e])

theorem findIdx_unique {α : Type} {n : Nat} (f : Fin n → α) (p : α → Bool) (j : Fin n) (h : ∀ i, p (f i) = true ↔ i = j) :
    (List.ofFn f).findIdx? p = some j.val := by
  rw [List.findIdx?_eq_some_iff_getElem]
  refine ⟨by simp, by rw [List.getElem_ofFn]; exact (h _).mpr rfl, fun i hi => ?_⟩
  rw [List.getElem_ofFn, Bool.not_eq_true, ← Bool.not_eq_true, h]
  intro e
  have := congrArg Fin.val e
  simp at this
  omega

omit [IsStrictOrderedRing K] in
theorem step_eq {ins : Node D K → Node D K → Res (Node D K × Bool)} {b : Box D K} {lf : Bool} {cs : List (Node D K)}
    {k : Index D} (hc : b.containsBox (lbox w k fun d => k d + 1) = true)
    (hb : b.beq (lbox w k fun d => k d + 1) = false) :
    Node.insertStep w ins (.mk b lf cs) (leafNode w k) =
      match cs.findIdx? (fun c => c.contains (lbox w k fun d => k d + 1)) with
      | some i => match cs[i]? with
        | some c => Node.insertChild w ins (.mk b lf cs) (leafNode w k) i c
        | none => .ub
      | none => Node.insertHere w ins (.mk b lf cs) (leafNode w k) := by
  have hc' : (Node.mk b lf cs).box.containsBox (leafNode w k).box = true := hc
  have hb' : (Node.mk b lf cs).box.beq (leafNode w k).box = false := hb
  unfold Node.insertStep
  rw [hc', hb']
  rfl

omit [IsStrictOrderedRing K] in
theorem step_beq {ins : Node D K → Node D K → Res (Node D K × Bool)} {b : Box D K} {lf : Bool} {cs : List (Node D K)}
    {k : Index D} (hc : b.containsBox (lbox w k fun d => k d + 1) = true)
    (hb : b.beq (lbox w k fun d => k d + 1) = true) :
    Node.insertStep w ins (.mk b lf cs) (leafNode w k) =
      .done (if cs.isEmpty then .mk b true cs else .mk b lf cs, true) := by
  have hc' : (Node.mk b lf cs).box.containsBox (leafNode w k).box = true := hc
  have hb' : (Node.mk b lf cs).box.beq (leafNode w k).box = true := hb
  unfold Node.insertStep
  rw [hc', hb']
  simp [Node.children, Node.box, Node.leaf, leafNode]

omit [IsStrictOrderedRing K] in
theorem here_push {ins : Node D K → Node D K → Res (Node D K × Bool)} {b : Box D K} {cs : List (Node D K)}
    {n : Node D K} (hl : cs.length < 2 ^ D) :
    Node.insertHere w ins (.mk b false cs) n = .done (.mk b false (cs ++ [n]), true) := by
  have hl' : (Node.mk b false cs).children.length < 2 ^ D := hl
  unfold Node.insertHere
  rw [if_neg (by simp [Node.leaf]), if_pos hl']
  rfl

omit [IsStrictOrderedRing K] in
theorem here_split {ins : Node D K → Node D K → Res (Node D K × Bool)} {b : Box D K} {cs : List (Node D K)}
    {n : Node D K} (hl : ¬ cs.length < 2 ^ D) :
    Node.insertHere w ins (.mk b false cs) n =
      (Node.reinsert ins cs (.mk b false ((List.range (2 ^ D)).map (Node.splitChild w b)))).bind fun n' => ins n' n := by
  have hl' : ¬ (Node.mk b false cs).children.length < 2 ^ D := hl
  unfold Node.insertHere
  rw [if_neg (by simp [Node.leaf]), if_neg hl', Node.split, if_neg hl']
  rfl

include hw

theorem insert_self (f : Nat) (k : Index D) :
    Node.insert w (f + 1) (leafNode w k) (leafNode w k) = .done (leafNode w k, true) := by
  rw [Node.insert]
  conv_lhs => rw [leafNode]
  exact step_beq ((lbox_contains hw).mpr fun d => ⟨le_rfl, le_rfl⟩) ((lbox_beq hw).mpr ⟨rfl, rfl⟩)

/-- One insertion in a node whose children are the parts of its box. -/
theorem insert_split {f : Nat} {lo hi : Index D} {ch : Fin (2 ^ D) → Node D K} {S : Fin (2 ^ D) → Finset (Index D)}
    (hle : ∀ d, lo d ≤ hi d) (hbig : ∃ d, lo d + 2 ≤ hi d)
    (hch : ∀ j : Fin (2 ^ D), Good w (ch j) (slo lo hi j) (shi lo hi j) (S j)) {k : Index D} (hk : Inside lo hi k)
    (ih : ∀ j : Fin (2 ^ D), Inside (slo lo hi j) (shi lo hi j) k → ∃ n', Node.insert w f (ch j) (leafNode w k) =
      .done (n', true) ∧ Good w n' (slo lo hi j) (shi lo hi j) (insert k (S j))) :
    ∃ ch', Node.insert w (f + 1) (.mk (lbox w lo hi) false (List.ofFn ch)) (leafNode w k) =
        .done (.mk (lbox w lo hi) false (List.ofFn ch'), true) ∧
      ∃ S' : Fin (2 ^ D) → Finset (Index D),
        (∀ j : Fin (2 ^ D), Good w (ch' j) (slo lo hi j) (shi lo hi j) (S' j)) ∧
        Finset.univ.biUnion S' = insert k (Finset.univ.biUnion S) := by
  obtain ⟨j, hj⟩ := exists_child hk
  obtain ⟨n', h1, h2⟩ := ih j hj
  refine ⟨Function.update ch j n', ?_, Function.update S j (insert k (S j)), ?_, ?_⟩
  · have hc : (lbox w lo hi).containsBox (lbox w k fun d => k d + 1) = true := (lbox_contains hw).mpr hk
    have hb : (lbox w lo hi).beq (lbox w k fun d => k d + 1) = false := by
      rw [← Bool.not_eq_true, lbox_beq hw]
      rintro ⟨rfl, rfl⟩
      obtain ⟨d, hd⟩ := hbig
      have hd' : lo d + 2 ≤ lo d + 1 := hd
      omega
    have hf : (List.ofFn ch).findIdx? (fun c => c.contains (lbox w k fun d => k d + 1)) = some j.val := by
      refine findIdx_unique ch _ j fun i => ?_
      have hbx := (hch i).box.1
      have : (ch i).contains (lbox w k fun d => k d + 1) = true ↔ Inside (slo lo hi i) (shi lo hi i) k := by
        cases hn : ch i with
        | mk b l cs =>
          rw [hn] at hbx
          have hbx' : b = lbox w (slo lo hi i) (shi lo hi i) := hbx
          rw [hbx', contains_lbox hw]
          rfl
      rw [this]
      exact ⟨fun h => child_unique h hj, fun h => h ▸ hj⟩
    have hg : (List.ofFn ch)[j.val]? = some (ch j) := by simp
    rw [Node.insert, step_eq hc hb, hf]
    simp only [hg, Node.insertChild]
    rw [h1, Res.bind_done, if_pos rfl]
    simp only [Node.box, Node.leaf, Node.children, set_ofFn]
  · intro i
    by_cases he : i = j
    · subst he; simpa using h2
    · simpa [he] using hch i
  · ext x
    simp only [Finset.mem_biUnion, Finset.mem_univ, true_and, Finset.mem_insert]
    constructor
    · rintro ⟨i, hi'⟩
      by_cases he : i = j
      · subst he
        rw [Function.update_self, Finset.mem_insert] at hi'
        exact hi'.imp id fun h => ⟨i, h⟩
      · rw [Function.update_of_ne he] at hi'
        exact Or.inr ⟨i, hi'⟩
    · rintro (rfl | ⟨i, hi'⟩)
      · exact ⟨j, by simp⟩
      · refine ⟨i, ?_⟩
        by_cases he : i = j
        · subst he; simp [hi']
        · rwa [Function.update_of_ne he]

/-- Insertion of a cell that fits. -/
theorem insert_good : ∀ (f : Nat) (n : Node D K) (lo hi : Index D) (S : Finset (Index D)), Good w n lo hi S →
    2 * size lo hi + 2 ≤ f → ∀ k, Inside lo hi k →
      ∃ n', Node.insert w f n (leafNode w k) = .done (n', true) ∧ Good w n' lo hi (insert k S) := by
  intro f
  induction f using Nat.strong_induction_on with
  | _ f ih =>
  intro n lo hi S hg hf k hk
  obtain ⟨f, rfl⟩ : ∃ g, f = g + 1 := ⟨f - 1, by omega⟩
  -- nodes after a split
  have hsplit : ∀ g ≤ f + 1, 2 * size lo hi + 1 ≤ g → ∀ (ch : Fin (2 ^ D) → Node D K)
      (S : Fin (2 ^ D) → Finset (Index D)), (∀ d, lo d ≤ hi d) → (∃ d, lo d + 2 ≤ hi d) →
      (∀ j : Fin (2 ^ D), Good w (ch j) (slo lo hi j) (shi lo hi j) (S j)) → ∀ k, Inside lo hi k →
      ∃ ch', Node.insert w g (.mk (lbox w lo hi) false (List.ofFn ch)) (leafNode w k) =
        .done (.mk (lbox w lo hi) false (List.ofFn ch'), true) ∧
      ∃ S' : Fin (2 ^ D) → Finset (Index D),
        (∀ j : Fin (2 ^ D), Good w (ch' j) (slo lo hi j) (shi lo hi j) (S' j)) ∧
        Finset.univ.biUnion S' = insert k (Finset.univ.biUnion S) := by
    intro g hg hg' ch S hle hbig hch k hk
    obtain ⟨g, rfl⟩ : ∃ x, g = x + 1 := ⟨g - 1, by omega⟩
    refine insert_split hw hle hbig hch hk fun j hj => ?_
    have := size_split hle hbig (j : Nat)
    exact ih g (by omega) _ _ _ _ (hch j) (by omega) k hj
  cases hg with
  | leaf =>
    have : k = lo := by
      funext d
      have h1 : lo d ≤ k d := (hk d).1
      have h2 : k d + 1 ≤ lo d + 1 := (hk d).2
      omega
    subst this
    refine ⟨leafNode w k, insert_self hw f k, ?_⟩
    rw [Finset.insert_eq_of_mem (Finset.mem_singleton_self k)]
    exact Good.leaf k
  | split lo hi ch S hle hbig hch =>
    obtain ⟨ch', h1, S', h2, h3⟩ := hsplit (f + 1) le_rfl (by omega) ch S hle hbig hch k hk
    refine ⟨_, h1, ?_⟩
    rw [← h3]
    exact Good.split lo hi ch' S' hle hbig h2
  | flat lo hi ks hle hnd hlen hin hne =>
    have hc : (lbox w lo hi).containsBox (lbox w k fun d => k d + 1) = true := (lbox_contains hw).mpr hk
    by_cases hb : lo = k ∧ hi = fun d => k d + 1
    · -- the box is the cell
      have hks : ks = [] := by
        rw [List.eq_nil_iff_forall_not_mem]
        intro x hx
        refine hne x hx ?_
        have : x = k := by
          funext d
          have h1 := hin x hx d
          have h2 := congrFun hb.1 d
          have h3 : hi d = k d + 1 := congrFun hb.2 d
          omega
        rw [this]; exact hb
      subst hks
      have hb' : (lbox w lo hi).beq (lbox w k fun d => k d + 1) = true := (lbox_beq hw).mpr hb
      refine ⟨leafNode w k, ?_, ?_⟩
      · rw [Node.insert, List.map_nil, step_beq hc hb', List.isEmpty_nil, if_pos rfl, leafNode, hb.1, hb.2]
      · rw [hb.1, hb.2]
        exact Good.leaf k
    · have hb' : (lbox w lo hi).beq (lbox w k fun d => k d + 1) = false := by
        rw [← Bool.not_eq_true, lbox_beq hw]; exact hb
      have hleaf : ∀ x, (leafNode w x).contains (lbox w k fun d => k d + 1) = true ↔ x = k := by
        intro x
        rw [leafNode, contains_lbox hw]
        constructor
        · intro h; funext d; have := h d; omega
        · rintro rfl d; exact ⟨le_rfl, le_rfl⟩
      rw [Node.insert, step_eq hc hb']
      cases hfi : (ks.map (leafNode w)).findIdx? (fun c => c.contains (lbox w k fun d => k d + 1)) with
      | some i =>
        obtain ⟨hi1, hi2, _⟩ := List.findIdx?_eq_some_iff_getElem.mp hfi
        rw [List.getElem_map, hleaf] at hi2
        have hi1' : i < ks.length := by simpa using hi1
        have hmem : k ∈ ks := hi2 ▸ List.getElem_mem hi1'
        have hget : (ks.map (leafNode w))[i]? = some (leafNode w k) := by
          rw [List.getElem?_eq_getElem hi1, List.getElem_map, hi2]
        simp only [hget, Node.insertChild]
        obtain ⟨g, rfl⟩ : ∃ g, f = g + 1 := ⟨f - 1, by omega⟩
        rw [insert_self hw, Res.bind_done, if_pos rfl]
        have hset : (ks.map (leafNode w)).set i (leafNode w k) = ks.map (leafNode w) := by
          conv_rhs => rw [← List.set_getElem_self hi1]
          rw [List.getElem_map, hi2]
        refine ⟨_, rfl, ?_⟩
        simp only [Node.box, Node.leaf, Node.children, hset]
        rw [Finset.insert_eq_of_mem (List.mem_toFinset.mpr hmem)]
        exact Good.flat lo hi ks hle hnd hlen hin hne
      | none =>
        have hk' : k ∉ ks := by
          intro hmem
          rw [List.findIdx?_eq_none_iff] at hfi
          have := hfi (leafNode w k) (List.mem_map_of_mem hmem)
          rw [← Bool.not_eq_true] at this
          exact this ((hleaf k).mpr rfl)
        by_cases hl : (ks.map (leafNode w)).length < 2 ^ D
        · rw [here_push hl]
          rw [List.length_map] at hl
          refine ⟨_, rfl, ?_⟩
          have e1 : ks.map (leafNode w) ++ [leafNode w k] = (ks ++ [k]).map (leafNode w) := by simp
          have e2 : insert k ks.toFinset = (ks ++ [k]).toFinset := by ext x; simp [or_comm]
          rw [e1, e2]
          refine Good.flat lo hi (ks ++ [k]) hle ?_ ?_ ?_ ?_
          · rw [List.nodup_append]
            refine ⟨hnd, by simp, fun a ha b hb => ?_⟩
            obtain rfl := List.mem_singleton.mp hb
            exact fun h => hk' (h ▸ ha)
          · rw [List.length_append, List.length_singleton]; omega
          · intro x hx
            rcases List.mem_append.mp hx with h | h
            · exact hin x h
            · obtain rfl := List.mem_singleton.mp h; exact hk
          · intro x hx
            rcases List.mem_append.mp hx with h | h
            · exact hne x h
            · obtain rfl := List.mem_singleton.mp h; exact hb
        · rw [here_split hl]
          have hpos := Nat.two_pow_pos D
          -- two different cells fit
          have hbig : ∃ d, lo d + 2 ≤ hi d := by
            rw [List.length_map] at hl
            obtain ⟨x, hx⟩ : ∃ x, x ∈ ks := List.exists_mem_of_length_pos (by omega)
            by_contra hno
            push_neg at hno
            apply hk'
            have : k = x := by
              funext d
              have h1 := hk d
              have h2 := hin x hx d
              have h3 := hno d
              omega
            rw [this]; exact hx
          have hnew : (List.range (2 ^ D)).map (Node.splitChild w (lbox w lo hi)) =
              List.ofFn fun j : Fin (2 ^ D) => (.mk (lbox w (slo lo hi j) (shi lo hi j)) false [] : Node D K) := by
            apply List.ext_getElem
            · simp
            · intro i h1 h2
              simp [splitChild_eq hw]
          rw [hnew]
          -- reinsertion of the old children
          have hre : ∀ (l : List (Index D)), (∀ x ∈ l, Inside lo hi x) → ∀ (ch : Fin (2 ^ D) → Node D K)
              (S : Fin (2 ^ D) → Finset (Index D)),
              (∀ j : Fin (2 ^ D), Good w (ch j) (slo lo hi j) (shi lo hi j) (S j)) →
              ∃ ch', Node.reinsert (Node.insert w f) (l.map (leafNode w)) (.mk (lbox w lo hi) false (List.ofFn ch)) =
                .done (.mk (lbox w lo hi) false (List.ofFn ch')) ∧
              ∃ S' : Fin (2 ^ D) → Finset (Index D),
                (∀ j : Fin (2 ^ D), Good w (ch' j) (slo lo hi j) (shi lo hi j) (S' j)) ∧
                Finset.univ.biUnion S' = Finset.univ.biUnion S ∪ l.toFinset := by
            intro l
            induction l with
            | nil =>
              intro _ ch S h
              exact ⟨ch, rfl, S, h, by simp⟩
            | cons x l ihl =>
              intro hx ch S h
              obtain ⟨ch1, a1, S1, a2, a3⟩ := hsplit f (by omega) (by omega) ch S hle hbig h x (hx x (by simp))
              obtain ⟨ch2, b1, S2, b2, b3⟩ := ihl (fun y hy => hx y (by simp [hy])) ch1 S1 a2
              refine ⟨ch2, ?_, S2, b2, ?_⟩
              · rw [List.map_cons, Node.reinsert, a1, Res.bind_done]
                exact b1
              · rw [b3, a3]
                ext y
                simp only [Finset.mem_union, Finset.mem_insert, List.mem_toFinset, List.mem_cons]
                tauto
          obtain ⟨ch1, a1, S1, a2, a3⟩ := hre ks hin
            (fun j => .mk (lbox w (slo lo hi j) (shi lo hi j)) false []) (fun _ => ∅) (fun j => by
              have := Good.flat (w := w) (slo lo hi j) (shi lo hi j) [] (slo_le hle j) (by simp) (by simp) (by simp)
                (by simp)
              simpa using this)
          rw [a1, Res.bind_done]
          obtain ⟨ch2, b1, S2, b2, b3⟩ := hsplit f (by omega) (by omega) ch1 S1 hle hbig a2 k hk
          refine ⟨_, b1, ?_⟩
          have : insert k ks.toFinset = Finset.univ.biUnion S2 := by
            rw [b3, a3]
            ext y
            simp
          rw [this]
          exact Good.split lo hi ch2 S2 hle hbig b2

end AABB
end Verif
