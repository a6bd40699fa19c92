import Verif.Lemmas.BitSetIter

/-!
# Properties of the bit set (C18-C21, and the bit set part of C72)
-/
namespace Verif
namespace BitSet

/-! ## C18: membership, return values and size for every sequence of operations -/

/-- Calls on a `Bit_Set`. -/
inductive SOp
  | set (k : Nat)
  | insert (k : Nat)
  | unset (k : Nat)
  | isSet (k : Nat)
deriving DecidableEq

/-- The id an operation works on. -/
def SOp.id : SOp → Nat
  | .set k | .insert k | .unset k | .isSet k => k

/-- The code called by an operation (`testAndSet`, `insert`, `testAndUnset`, `isSet`). -/
def SOp.run (s : BitSet) : SOp → Option (BitSet × Bool)
  | .set k => s.testAndSet k
  | .insert k => s.insert k
  | .unset k => s.testAndUnset k
  | .isSet k => (s.isSet k).map fun b => (s, b)

/-- A sequence of calls; the results in call order. -/
def runOps (s : BitSet) : List SOp → Option (BitSet × List Bool)
  | [] => some (s, [])
  | op :: ops => (op.run s).bind fun r => (runOps r.1 ops).map fun q => (q.1, r.2 :: q.2)

/-- Whether an operation changes the bit of id `i`. -/
def SOp.writes (i : Nat) : SOp → Bool
  | .set k | .insert k | .unset k => k == i
  | .isSet _ => false

/-- Specification: the last operation of the sequence that wrote bit `i` was a set. -/
def lastSet (ops : List SOp) (i : Nat) : Bool :=
  match ops.reverse.find? (SOp.writes i) with
  | some (.set _) | some (.insert _) => true
  | _ => false

/-- Specification: result of an operation called after the operations `before`. -/
def expected (before : List SOp) : SOp → Bool
  | .set k | .unset k | .isSet k => lastSet before k
  | .insert k => !lastSet before k

theorem lastSet_snoc (ops : List SOp) (op : SOp) (i : Nat) :
    lastSet (ops ++ [op]) i = if op.writes i then (match op with
      | .set _ | .insert _ => true
      | _ => false) else lastSet ops i := by
  unfold lastSet
  rw [List.reverse_append, List.reverse_singleton, List.singleton_append, List.find?_cons]
  cases h : op.writes i
  · simp
  · cases op <;> simp [SOp.writes] at h ⊢

theorem runOps_snoc (s : BitSet) : ∀ (ops : List SOp) (op : SOp),
    runOps s (ops ++ [op]) = (runOps s ops).bind fun r => (op.run r.1).map fun q => (q.1, r.2 ++ [q.2]) := by
  intro ops
  induction ops generalizing s with
  | nil => intro op; simp only [List.nil_append, runOps, Option.bind_some]
           cases op.run s <;> simp
  | cons o ops ih =>
    intro op
    simp only [List.cons_append, runOps]
    cases o.run s with
    | none => rfl
    | some r =>
      simp only [Option.bind_some, ih]
      cases runOps r.1 ops with
      | none => rfl
      | some q =>
        simp only [Option.bind_some, Option.map_some]
        cases op.run q.1 <;> simp

/-- Effect of one operation in terms of the abstract set. -/
theorem run_spec {s : BitSet} (h : s.Inv) (hones : s.ones = s.keys.card) (op : SOp) (h1 : s.lo ≤ op.id)
    (h2 : op.id < s.hi) :
    ∃ s' b, op.run s = some (s', b) ∧ s'.Inv ∧ s'.lo = s.lo ∧ s'.hi = s.hi ∧
      s'.ones = s'.keys.card ∧
      (∀ i, i ∈ s'.keys ↔ if op.writes i then (match op with
        | .set _ | .insert _ => True
        | _ => False) else i ∈ s.keys) ∧
      b = (match op with
        | .set k | .unset k | .isSet k => decide (k ∈ s.keys)
        | .insert k => !decide (k ∈ s.keys)) := by
  have hset : ∀ (s' : BitSet) (k : Nat), s'.ones = s.ones + (if k ∈ s.keys then 0 else 1) →
      s'.keys = insert k s.keys → s'.ones = s'.keys.card := by
    intro s' k h3 h4
    rw [h3, h4, hones]
    by_cases hk : k ∈ s.keys
    · rw [if_pos hk, Finset.insert_eq_of_mem hk]; rfl
    · rw [if_neg hk, Finset.card_insert_of_notMem hk]
  cases op with
  | set k =>
    obtain ⟨s', e1, e2, e3, e4, e5, e6⟩ := testAndSet_spec h (k := k) h1 h2
    refine ⟨s', _, e1, e2, e3, e4, hset s' k e6 e5, fun i => ?_, rfl⟩
    rw [e5, Finset.mem_insert]
    by_cases hki : k = i
    · simp [SOp.writes, hki]
    · simp [SOp.writes, hki, Ne.symm hki]
  | insert k =>
    obtain ⟨s', e1, e2, e3, e4, e5, e6⟩ := testAndSet_spec h (k := k) h1 h2
    have e1' : (SOp.insert k).run s = some (s', !decide (k ∈ s.keys)) := by
      change (s.testAndSet k).map _ = _
      rw [show s.testAndSet k = _ from e1]; rfl
    refine ⟨s', _, e1', e2, e3, e4, hset s' k e6 e5, fun i => ?_, rfl⟩
    rw [e5, Finset.mem_insert]
    by_cases hki : k = i
    · simp [SOp.writes, hki, SOp.id]
    · simp [SOp.writes, hki, Ne.symm hki, SOp.id]
  | unset k =>
    obtain ⟨s', e1, e2, e3, e4, e5, e6⟩ := testAndUnset_spec h (k := k) h1 h2
    refine ⟨s', _, e1, e2, e3, e4, ?_, fun i => ?_, rfl⟩
    · rw [e6, e5, hones]
      by_cases hk : k ∈ s.keys
      · rw [if_pos hk, Finset.card_erase_of_mem hk]
      · rw [if_neg hk, Finset.erase_eq_of_notMem hk]; rfl
    · rw [e5, Finset.mem_erase]
      by_cases hki : k = i
      · simp [SOp.writes, hki, SOp.id]
      · simp [SOp.writes, hki, Ne.symm hki, SOp.id]
  | isSet k =>
    have hk : k < 2 ^ 32 := Nat.lt_of_lt_of_le h2 h.max
    refine ⟨s, _, ?_, h, rfl, rfl, hones, fun i => ?_, rfl⟩
    · change (s.isSet k).map _ = _
      rw [isSet_spec h hk]; rfl
    · simp [SOp.writes]

/-- **C18** For all bounds `l ≤ u ≤ 2^32` and every sequence of calls on ids in `[l, u)`, a new bit
set does not run into undefined behaviour; every call returns what the last earlier write to its bit
says; afterwards `isSet` is true exactly for the ids whose last write set them (for all 32-bit ids,
inside and outside the bounds), and `size()` is their number. -/
theorem C18_bitset (l u : Nat) (hlu : l ≤ u) (hu : u ≤ 2 ^ 32) (ops : List SOp)
    (hops : ∀ op ∈ ops, l ≤ op.id ∧ op.id < u) :
    ∃ s rets, runOps (new l u) ops = some (s, rets) ∧ rets.length = ops.length ∧
      (∀ n op, ops[n]? = some op → rets[n]? = some (expected (ops.take n) op)) ∧
      (∀ k < 2 ^ 32, s.isSet k = some (lastSet ops k)) ∧
      s.size = ((Finset.Ico l u).filter fun i => lastSet ops i).card := by
  have key : ∀ ops : List SOp, (∀ op ∈ ops, l ≤ op.id ∧ op.id < u) →
      ∃ s rets, runOps (new l u) ops = some (s, rets) ∧ rets.length = ops.length ∧
      (∀ n op, ops[n]? = some op → rets[n]? = some (expected (ops.take n) op)) ∧
      s.Inv ∧ s.lo = l / 32 * 32 ∧ s.hi = (u + 31) / 32 * 32 ∧ s.ones = s.keys.card ∧
      ∀ i, i ∈ s.keys ↔ lastSet ops i = true := by
    intro ops
    induction ops using List.reverseRecOn with
    | nil =>
      intro _
      obtain ⟨h1, h2⟩ := new_inv hlu hu
      refine ⟨_, _, rfl, rfl, by simp, h1, rfl, rfl, by rw [h2]; rfl, fun i => ?_⟩
      rw [h2]
      simp [lastSet]
    | append_singleton ops op ih =>
      intro hops
      obtain ⟨s, rets, e1, e2, e3, e4, e5, e6, e7, e8⟩ := ih fun o ho => hops o (by simp [ho])
      have hb := hops op (by simp)
      obtain ⟨s', b, f1, f2, f3, f4, f5, f6, f7⟩ := run_spec e4 e7 op (by omega) (by omega)
      refine ⟨s', rets ++ [b], ?_, by simp [e2], ?_, f2, by omega, by omega, f5, ?_⟩
      · rw [runOps_snoc, e1]
        simp only [Option.bind_some, f1, Option.map_some]
      · intro n o hn
        by_cases hlt : n < ops.length
        · rw [List.getElem?_append_left hlt] at hn
          rw [List.getElem?_append_left (by omega), List.take_append_of_le_length (by omega)]
          exact e3 n o hn
        · have hlt' : n < (ops ++ [op]).length := (List.getElem?_eq_some_iff.1 hn).1
          have : n = ops.length := by simp at hlt'; omega
          subst this
          rw [List.getElem?_append_right (le_refl _)] at hn
          simp only [Nat.sub_self, List.getElem?_cons_zero, Option.some.injEq] at hn
          subst hn
          rw [← e2, List.getElem?_append_right (le_refl _), e2, List.take_left]
          simp only [Nat.sub_self, List.getElem?_cons_zero, f7, Option.some.injEq]
          have hd : ∀ k, decide (k ∈ s.keys) = lastSet ops k := fun k => by
            rw [Bool.eq_iff_iff, decide_eq_true_iff, e8]
          cases op <;> simp only [expected, hd]
      · intro i
        rw [f6 i, lastSet_snoc]
        by_cases hw : op.writes i
        · rw [if_pos hw, if_pos hw]
          cases op <;> simp
        · rw [if_neg hw, if_neg hw]
          exact e8 i
  obtain ⟨s, rets, e1, e2, e3, e4, e5, e6, e7, e8⟩ := key ops hops
  refine ⟨s, rets, e1, e2, e3, ?_, ?_⟩
  · intro k hk
    rw [isSet_spec e4 hk, Option.some.injEq, Bool.eq_iff_iff, decide_eq_true_iff]
    exact e8 k
  · change s.ones = _
    rw [e7]
    congr 1
    ext i
    rw [Finset.mem_filter, Finset.mem_Ico, e8 i]
    constructor
    · intro hi
      refine ⟨?_, hi⟩
      unfold lastSet at hi
      cases hf : ops.reverse.find? (SOp.writes i) with
      | none => rw [hf] at hi; simp at hi
      | some o =>
        have hm := List.mem_of_find?_eq_some hf
        have hw := List.find?_some hf
        have hid := hops o (List.mem_reverse.1 hm)
        cases o <;> simp [SOp.writes, SOp.id] at hw hid <;> subst hw <;> exact hid
    · exact fun h => h.2

example : ∃ s rets, runOps (new 33 70) [.set 33, .insert 33, .set 69, .unset 33, .isSet 69] =
    some (s, rets) ∧ rets = [false, false, false, true, true] ∧ s.size = 1 ∧
    s.isSet 69 = some true ∧ s.isSet 33 = some false :=
  ⟨_, _, rfl, by decide +kernel, by decide +kernel, by decide +kernel, by decide +kernel⟩

/-- Boundary of **C18**: ids are stored as 32-bit `uint`. Any id at or above `2^32` is truncated, and
on a set whose range starts at `2^32` the first write accesses memory outside of the array. -/
theorem C18_large_ids_violated : testAndSet (new (2 ^ 32) (2 ^ 32 + 32)) (2 ^ 32 + 5) = none := by
  decide +kernel

/-! ## C19: algebra -/

/-- Bit sets that a client can build from constructors, writes, `merge`, `mergeFilter`, `resize` and
`filter`. -/
inductive BitProg
  | new (l u : Nat)
  | set (p : BitProg) (k : Nat)
  | unset (p : BitProg) (k : Nat)
  | merge (p q : BitProg)
  | mergeFilter (p q f : BitProg)
  | resize (p : BitProg) (l u : Nat)
  | filter (p f : BitProg)

namespace BitProg

/-- The code called. -/
def run : BitProg → Option BitSet
  | .new l u => some (BitSet.new l u)
  | .set p k => p.run.bind fun s => (s.testAndSet k).map (·.1)
  | .unset p k => p.run.bind fun s => (s.testAndUnset k).map (·.1)
  | .merge p q => p.run.bind fun s => q.run.bind fun o => s.merge o
  | .mergeFilter p q f => p.run.bind fun s => q.run.bind fun o => f.run.bind fun g => s.mergeFilter o g
  | .resize p l u => p.run.bind fun s => s.resize l u
  | .filter p f => p.run.bind fun s => f.run.bind fun g => s.filter g

/-- Specification: the range of ids (rounded to blocks) of the result. -/
def range : BitProg → Nat × Nat
  | .new l u => (l / 32 * 32, (u + 31) / 32 * 32)
  | .set p _ | .unset p _ => p.range
  | .merge p q | .mergeFilter p q _ => (min p.range.1 q.range.1, max p.range.2 q.range.2)
  | .resize p l u => (min p.range.1 (l / 32 * 32), max p.range.2 ((u + 31) / 32 * 32))
  | .filter p _ => p.range

/-- Specification: the ids in the result. -/
def ids : BitProg → Finset Nat
  | .new _ _ => ∅
  | .set p k => insert k p.ids
  | .unset p k => p.ids.erase k
  | .merge p q => p.ids ∪ q.ids
  | .mergeFilter p q f => (p.ids ∪ q.ids) \ f.ids
  | .resize p _ _ => p.ids
  | .filter p f => p.ids \ f.ids

/-- Bounds are ordered and at most `2^32`; writes are inside the range. -/
def Valid : BitProg → Prop
  | .new l u => l ≤ u ∧ u ≤ 2 ^ 32
  | .set p k | .unset p k => p.Valid ∧ p.range.1 ≤ k ∧ k < p.range.2
  | .merge p q => p.Valid ∧ q.Valid
  | .mergeFilter p q f => p.Valid ∧ q.Valid ∧ f.Valid
  | .resize p _ u => p.Valid ∧ u ≤ 2 ^ 32
  | .filter p f => p.Valid ∧ f.Valid

/-- No `filter` with a range that misses a remaining id, except below a `merge`. -/
def SizeOk : BitProg → Prop
  | .new _ _ => True
  | .set p _ | .unset p _ => p.SizeOk
  | .merge _ _ | .mergeFilter _ _ _ => True
  | .resize p _ _ => p.SizeOk
  | .filter p f => ∀ k ∈ p.ids, f.range.1 ≤ k ∧ k < f.range.2

theorem run_ok : ∀ (p : BitProg), p.Valid → ∃ s, p.run = some s ∧ s.Inv ∧ s.lo = p.range.1 ∧
    s.hi = p.range.2 ∧ s.keys = p.ids ∧ (p.SizeOk → s.ones = p.ids.card)
  | .new l u, hv => by
    obtain ⟨h1, h2⟩ := new_inv hv.1 hv.2
    exact ⟨_, rfl, h1, rfl, rfl, h2, fun _ => rfl⟩
  | .set p k, ⟨hv, hk⟩ => by
    obtain ⟨s, e1, e2, e3, e4, e5, e6⟩ := run_ok p hv
    obtain ⟨s', f1, f2, f3, f4, f5, f6⟩ := testAndSet_spec e2 (k := k) (by omega) (by omega)
    refine ⟨s', by simp [run, e1, f1], f2, by rw [f3, e3]; rfl, by rw [f4, e4]; rfl,
      by rw [f5, e5]; rfl, fun hs => ?_⟩
    rw [f6, e6 hs, e5]
    simp only [ids]
    by_cases hm : k ∈ p.ids
    · rw [if_pos hm, Finset.insert_eq_of_mem hm]; rfl
    · rw [if_neg hm, Finset.card_insert_of_notMem hm]
  | .unset p k, ⟨hv, hk⟩ => by
    obtain ⟨s, e1, e2, e3, e4, e5, e6⟩ := run_ok p hv
    obtain ⟨s', f1, f2, f3, f4, f5, f6⟩ := testAndUnset_spec e2 (k := k) (by omega) (by omega)
    refine ⟨s', by simp [run, e1, f1], f2, by rw [f3, e3]; rfl, by rw [f4, e4]; rfl,
      by rw [f5, e5]; rfl, fun hs => ?_⟩
    rw [f6, e6 hs, e5]
    simp only [ids]
    by_cases hm : k ∈ p.ids
    · rw [if_pos hm, Finset.card_erase_of_mem hm]
    · rw [if_neg hm, Finset.erase_eq_of_notMem hm]; rfl
  | .merge p q, ⟨hp, hq⟩ => by
    obtain ⟨s, e1, e2, e3, e4, e5, _⟩ := run_ok p hp
    obtain ⟨o, f1, f2, f3, f4, f5, _⟩ := run_ok q hq
    obtain ⟨r, g1, g2, g3, g4, g5, g6⟩ := merge_spec e2 f2
    refine ⟨r, by simp [run, e1, f1, g1], g2, by rw [g3, e3, f3]; rfl, by rw [g4, e4, f4]; rfl,
      by rw [g5, e5, f5]; rfl, fun _ => by rw [g6, g5, e5, f5]; rfl⟩
  | .mergeFilter p q f, ⟨hp, hq, hf⟩ => by
    obtain ⟨s, e1, e2, e3, e4, e5, _⟩ := run_ok p hp
    obtain ⟨o, f1, f2, f3, f4, f5, _⟩ := run_ok q hq
    obtain ⟨z, z1, z2, _, _, z5, _⟩ := run_ok f hf
    obtain ⟨r, g1, g2, g3, g4, g5, g6⟩ := mergeFilter_spec e2 f2 z2
    refine ⟨r, by simp [run, e1, f1, z1, g1], g2, by rw [g3, e3, f3]; rfl, by rw [g4, e4, f4]; rfl,
      by rw [g5, e5, f5, z5]; rfl, fun _ => by rw [g6, g5, e5, f5, z5]; rfl⟩
  | .resize p l u, ⟨hp, hu⟩ => by
    obtain ⟨s, e1, e2, e3, e4, e5, e6⟩ := run_ok p hp
    obtain ⟨r, g1, g2, g3, g4, g5, g6⟩ := resize_spec e2 (l := l) hu
    exact ⟨r, by simp [run, e1, g1], g2, by rw [g3, e3]; rfl, by rw [g4, e4]; rfl,
      by rw [g5, e5]; rfl, fun hs => by rw [g6, e6 hs]; rfl⟩
  | .filter p f, ⟨hp, hf⟩ => by
    obtain ⟨s, e1, e2, e3, e4, e5, _⟩ := run_ok p hp
    obtain ⟨z, z1, z2, z3, z4, z5, _⟩ := run_ok f hf
    obtain ⟨r, g1, g2, g3, g4, g5, g6⟩ := filter_spec e2 z2
    refine ⟨r, by simp [run, e1, z1, g1], g2, by rw [g3, e3]; rfl, by rw [g4, e4]; rfl,
      by rw [g5, e5, z5]; rfl, fun hs => ?_⟩
    rw [g6, g5, e5, z5, z3, z4]
    change _ = (p.ids \ f.ids).card
    congr 1
    rw [Finset.filter_true_of_mem]
    intro x hx
    exact hs x (Finset.mem_sdiff.1 hx).1

end BitProg

/-- **C19** (partial) Whatever bit sets a client builds, with arbitrary relative position of the
ranges, `merge` is the union over the hull of both ranges, `mergeFilter` is the union without the
filtered ids, `filter` removes exactly the ids of its argument, `resize` keeps the ids: afterwards
`isSet` answers according to the specification `ids`. The size is the number of ids, unless a
`filter` left ids outside of the range of its argument. -/
theorem C19_algebra_partial (p : BitProg) (hp : p.Valid) :
    ∃ s, p.run = some s ∧ s.lo = p.range.1 ∧ s.hi = p.range.2 ∧
      (∀ k < 2 ^ 32, s.isSet k = some (decide (k ∈ p.ids))) ∧
      (p.SizeOk → s.size = p.ids.card) := by
  obtain ⟨s, e1, e2, e3, e4, e5, e6⟩ := p.run_ok hp
  refine ⟨s, e1, e3, e4, fun k hk => ?_, e6⟩
  rw [isSet_spec e2 hk, e5]

example : BitProg.Valid (.filter (.merge (.set (.new 0 40) 5) (.set (.new 64 96) 70))
    (.set (.resize (.new 32 64) 0 100) 70)) ∧
    BitProg.SizeOk (.filter (.merge (.set (.new 0 40) 5) (.set (.new 64 96) 70))
    (.set (.resize (.new 32 64) 0 100) 70)) := by
  simp [BitProg.Valid, BitProg.SizeOk, BitProg.range, BitProg.ids]

/-- Negation of the remaining part of **C19**: `filter` recomputes the size over the common range
only, so after filtering with a set over a different range the size is wrong (here the set `{5}` with
range `[0, 32)` is filtered by the empty set with range `[32, 64)`). -/
theorem C19_filter_size_violated :
    ∃ p f : BitProg, (BitProg.filter p f).Valid ∧ ∃ s, (BitProg.filter p f).run = some s ∧
      s.isSet 5 = some true ∧ (BitProg.filter p f).ids = {5} ∧ s.size = 0 := by
  refine ⟨.set (.new 0 32) 5, .new 32 64, ?_, ?_⟩
  · simp [BitProg.Valid, BitProg.range]
  · have h : ∃ s, (BitProg.filter (.set (.new 0 32) 5) (.new 32 64)).run = some s ∧
      s.isSet 5 = some true ∧ s.size = 0 := ⟨_, rfl, by decide +kernel, by decide +kernel⟩
    obtain ⟨s, h1, h2, h3⟩ := h
    exact ⟨s, h1, h2, by simp [BitProg.ids], h3⟩

/-! ## C20: batch construction -/

/-- **C20** (partial) If `to` is not a multiple of the block size, `batchSet(from, to)` has no
undefined behaviour and afterwards, of the ids in the blocks from that of `from` to that of `to - 1`,
exactly those in `[from, to)` are set; all other blocks are unchanged. Missing: block-aligned `to`,
and the other bits of the first and last block. -/
theorem C20_batchSet_partial (p : BitProg) (hp : p.Valid) (f t : Nat) (h1 : p.range.1 ≤ f)
    (h2 : f ≤ t) (h3 : t ≤ p.range.2) (h4 : t % 32 ≠ 0) :
    ∃ s r, p.run = some s ∧ s.batchSet f t = some r ∧
      ∀ k < 2 ^ 32, r.isSet k = some (decide ((f ≤ k ∧ k < t) ∨
        (k ∈ p.ids ∧ ¬ (f / 32 * 32 ≤ k ∧ k < (t + 31) / 32 * 32)))) := by
  obtain ⟨s, e1, e2, e3, e4, e5, e6⟩ := p.run_ok hp
  obtain ⟨r, g1, g2, g3, g4, g5, g6⟩ := batchSet_spec e2 (f := f) (t := t) (by omega) h2 (by omega) h4
  refine ⟨s, r, e1, g1, fun k hk => ?_⟩
  rw [isSet_spec g2 hk, Option.some.injEq, Bool.eq_iff_iff, decide_eq_true_iff, decide_eq_true_iff,
    g6, e5]

/-- **C20** For a set without ids in the first and last block the full claim holds for unaligned
`to`: exactly the ids in `[from, to)` are added; if the set was empty the size is right. -/
theorem C20_batchSet_fresh_partial (p : BitProg) (hp : p.Valid) (f t : Nat) (h1 : p.range.1 ≤ f)
    (h2 : f ≤ t) (h3 : t ≤ p.range.2) (h4 : t % 32 ≠ 0)
    (h5 : ∀ k ∈ p.ids, f / 32 * 32 ≤ k → k < (t + 31) / 32 * 32 → f ≤ k ∧ k < t) :
    ∃ s r, p.run = some s ∧ s.batchSet f t = some r ∧
      (∀ k < 2 ^ 32, r.isSet k = some (decide (k ∈ p.ids ∪ Finset.Ico f t))) ∧
      (p.ids = ∅ → r.size = (p.ids ∪ Finset.Ico f t).card) := by
  obtain ⟨s, e1, e2, e3, e4, e5, e6⟩ := p.run_ok hp
  obtain ⟨r, g1, g2, g3, g4, g5, g6⟩ := batchSet_spec e2 (f := f) (t := t) (by omega) h2 (by omega) h4
  refine ⟨s, r, e1, g1, fun k hk => ?_, fun he => ?_⟩
  · rw [isSet_spec g2 hk, Option.some.injEq, Bool.eq_iff_iff, decide_eq_true_iff, decide_eq_true_iff,
      g6, e5, Finset.mem_union, Finset.mem_Ico]
    constructor
    · rintro (h | h)
      · exact Or.inr h
      · exact Or.inl h.1
    · rintro (h | h)
      · by_cases hb : f / 32 * 32 ≤ k ∧ k < (t + 31) / 32 * 32
        · exact Or.inl (h5 k h hb.1 hb.2)
        · exact Or.inr ⟨h, hb⟩
      · exact Or.inl h
  · change r.ones = _
    rw [g5, he, Finset.empty_union, Nat.card_Ico]

example : ∃ s r, (BitProg.set (.new 0 200) 150).run = some s ∧ s.batchSet 5 70 = some r ∧
    r.isSet 5 = some true ∧ r.isSet 69 = some true ∧ r.isSet 70 = some false ∧
    r.isSet 150 = some true :=
  ⟨_, _, rfl, rfl, by decide +kernel, by decide +kernel, by decide +kernel, by decide +kernel⟩

/-- Negation of **C20**: with a block-aligned upper end the last block is computed with a shift by
32, which is undefined. -/
theorem C20_aligned_end_violated : (new 0 64).batchSet 0 64 = none := by decide +kernel

/-- Negation of **C20**: other bits of the first and last block are lost, and the size is wrong. -/
theorem C20_other_bits_violated : ∃ s r, (BitProg.set (BitProg.set (.new 0 64) 3) 60).run = some s ∧
    s.batchSet 5 40 = some r ∧ s.isSet 3 = some true ∧ r.isSet 3 = some false ∧
    s.isSet 60 = some true ∧ r.isSet 60 = some false :=
  ⟨_, _, rfl, rfl, by decide +kernel, by decide +kernel, by decide +kernel, by decide +kernel⟩

theorem C20_size_violated : ∃ s r, (BitProg.set (.new 0 128) 100).run = some s ∧
    s.batchSet 5 40 = some r ∧ r.isSet 100 = some true ∧ (∀ k ∈ List.range' 5 35, r.isSet k = some true) ∧
    r.size = 35 :=
  ⟨_, _, rfl, rfl, by decide +kernel, by decide +kernel, by decide +kernel⟩

/-! ## C21: iteration -/

/-- **C21** For every bit set a client can build, the loop from `begin()` to `end()` terminates
without undefined behaviour and visits exactly the ids of the set in ascending order. -/
theorem C21_iteration (p : BitProg) (hp : p.Valid) :
    ∃ s l, p.run = some s ∧ Returns s.iterate l ∧ l.Pairwise (· < ·) ∧ ∀ k, k ∈ l ↔ k ∈ p.ids := by
  obtain ⟨s, e1, e2, e3, e4, e5, e6⟩ := p.run_ok hp
  obtain ⟨l, h1, h2, h3⟩ := iterate_spec e2
  exact ⟨s, l, e1, h1, h2, fun k => by rw [h3, e5]⟩

example : ∃ s, (BitProg.set (BitProg.set (BitProg.set (.new 40 200) 47) 160) 63).run = some s ∧
    s.iterate 10 = .done [47, 63, 160] := by
  refine ⟨_, rfl, ?_⟩
  decide +kernel

/-! ## C72: serialisation -/

/-- **C72** (bit set) Loading a saved bit set yields the same bit set and leaves what follows in the
archive. -/
theorem C72_bitset_roundtrip (s : BitSet) (rest : List Nat) :
    load (s.save ++ rest) = some (s, rest) := load_save s rest

example : load ((new 0 40).save ++ [7]) = some (new 0 40, [7]) := C72_bitset_roundtrip _ _

end BitSet
end Verif
