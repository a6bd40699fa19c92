import Verif.Model.ConcBitSet
import Verif.Lemmas.BitSet
import Verif.Lemmas.Conc
import Verif.Lemmas.ConcMap

/-!
# Invariants of the lock-free bit set
-/
namespace Verif
namespace ConcBitSet
open Conc
open ConcMap (upd_cases)

/-- The blocks of the concurrent set as a sequential bit set. -/
def bs (s : Shared) : BitSet := { lo := s.lo, hi := s.hi, arr := s.arr, ones := 0 }

/-- The ids in the set. -/
def ids (s : Shared) : Finset Nat := (bs s).keys

/-- Specification of the operations on a finite set. -/
def spec (σ : Finset Nat) : Op → Bool → Finset Nat → Prop
  | .set k, r, σ' => r = decide (k ∈ σ) ∧ σ' = insert k σ
  | .unset k, r, σ' => r = decide (k ∈ σ) ∧ σ' = σ.erase k
  | .isSet k, r, σ' => r = decide (k ∈ σ) ∧ σ' = σ

/-- Precondition: writes are inside the bounds. -/
def ok (lo hi : Nat) : Op → Prop
  | .set k => lo ≤ k ∧ k < hi
  | .unset k => lo ≤ k ∧ k < hi
  | .isSet k => k < 2 ^ 32

theorem load_spec {s : Shared} (h : (bs s).Inv) {k : Nat} (h1 : s.lo ≤ k) (h2 : k < s.hi) :
    ∃ w, load s k = some w ∧ ((w &&& mask k ≠ 0#32) ↔ k ∈ ids s) := by
  obtain ⟨w, hw1, hw2, hw3⟩ := h.get (i := k) h1 h2
  refine ⟨w, hw1, ?_⟩
  have h3 := BitSet.and_shift w (k % 32) (Nat.mod_lt _ (by omega))
  unfold ids mask
  rw [BitSet.mem_keys, ← bne_iff_ne, h3, hw3]
  have : (bs s).lo ≤ k ∧ k < (bs s).hi := ⟨h1, h2⟩
  tauto

theorem store_set {s : Shared} (h : (bs s).Inv) {k : Nat} (h1 : s.lo ≤ k) (h2 : k < s.hi)
    {w : BitVec 32} (hw : load s k = some w) :
    (bs (store s k (w ||| mask k))).Inv ∧ ids (store s k (w ||| mask k)) = insert k (ids s) := by
  have hk : k < 2 ^ 32 := Nat.lt_of_lt_of_le h2 h.max
  have hkey : BitSet.key k = k := Nat.mod_eq_of_lt hk
  obtain ⟨s', e1, e2, e3, e4, e5, e6⟩ := BitSet.testAndSet_spec h (k := k) h1 h2
  have hb : (bs s).block k = some w := hw
  simp only [BitSet.testAndSet, hkey, BitSet.isSet_spec h hk, hb, Option.bind_some,
    Option.some.injEq, Prod.mk.injEq] at e1
  have e7 := e1.1
  subst e7
  exact ⟨⟨e2.lo32, e2.hi32, e2.le, e2.len, e2.max⟩, e5⟩

theorem store_unset {s : Shared} (h : (bs s).Inv) {k : Nat} (h1 : s.lo ≤ k) (h2 : k < s.hi)
    {w : BitVec 32} (hw : load s k = some w) :
    (bs (store s k (w &&& ~~~(mask k)))).Inv ∧
      ids (store s k (w &&& ~~~(mask k))) = (ids s).erase k := by
  have hk : k < 2 ^ 32 := Nat.lt_of_lt_of_le h2 h.max
  have hkey : BitSet.key k = k := Nat.mod_eq_of_lt hk
  obtain ⟨s', e1, e2, e3, e4, e5, e6⟩ := BitSet.testAndUnset_spec h (k := k) h1 h2
  have hb : (bs s).block k = some w := hw
  simp only [BitSet.testAndUnset, hkey, BitSet.isSet_spec h hk, hb, Option.bind_some,
    Option.some.injEq, Prod.mk.injEq] at e1
  have e7 := e1.1
  subst e7
  exact ⟨⟨e2.lo32, e2.hi32, e2.le, e2.len, e2.max⟩, e5⟩

/-- Local invariant. -/
def LocOk (op : Op) : Loc → Prop
  | .setLoad k => op = .set k
  | .setCas k val => op = .set k ∧ val &&& mask k = 0#32
  | .setIncr k => op = .set k
  | .unsetLoad k => op = .unset k
  | .unsetCas k val => op = .unset k ∧ val &&& mask k ≠ 0#32
  | .unsetDecr k => op = .unset k
  | .isSet k => op = .isSet k

/-- Result of a thread that has passed its linearization point. -/
def dn : Loc → Option Bool
  | .setIncr _ => some false
  | .unsetDecr _ => some true
  | _ => none

/-- Threads between setting bit `k` and counting it. -/
def pset (k : Nat) : Option (Active Loc Op) → Bool
  | some ⟨_, .setIncr k', _⟩ => decide (k' = k)
  | _ => false

/-- Threads between clearing bit `k` and counting it. -/
def punset (k : Nat) : Option (Active Loc Op) → Bool
  | some ⟨_, .unsetDecr k', _⟩ => decide (k' = k)
  | _ => false

def psetA : Option (Active Loc Op) → Bool
  | some ⟨_, .setIncr _, _⟩ => true
  | _ => false

def punsetA : Option (Active Loc Op) → Bool
  | some ⟨_, .unsetDecr _, _⟩ => true
  | _ => false

/-- Number of calls `testAndSet(k)` that reported that they set the bit. -/
def setWins {n : Nat} (k : Nat) (h : List (Ev n Op Bool)) : Nat :=
  h.countP fun e => match e with
    | .res _ (.set k') false => decide (k' = k)
    | _ => false

/-- Number of calls `testAndUnset(k)` that reported that they cleared the bit. -/
def unsetWins {n : Nat} (k : Nat) (h : List (Ev n Op Bool)) : Nat :=
  h.countP fun e => match e with
    | .res _ (.unset k') true => decide (k' = k)
    | _ => false

structure CInv {n : Nat} (s0 : Shared) (c : Config n Shared Loc Op Bool) : Prop where
  lo : c.sh.lo = s0.lo
  hi : c.sh.hi = s0.hi
  inv : (bs c.sh).Inv
  loc : ∀ t A, c.th t = some A → LocOk A.op A.loc ∧ ok s0.lo s0.hi A.op
  cnt : c.sh.ones + Conc.cnt psetA c.th = (ids c.sh).card + Conc.cnt punsetA c.th
  bal : ∀ k, (if k ∈ ids s0 then 1 else 0) + setWins k c.hist + Conc.cnt (pset k) c.th =
    unsetWins k c.hist + Conc.cnt (punset k) c.th + (if k ∈ ids c.sh then 1 else 0)

/-- What a step does. -/
inductive StepCase (s : Shared) (op : Op) (l : Loc) : Shared → (Loc ⊕ Bool) → Prop where
  | move (l' : Loc) : LocOk op l' → dn l = none → dn l' = none → StepCase s op l s (.inl l')
  | setTrue (k : Nat) : op = .set k → k ∈ ids s → dn l = none → StepCase s op l s (.inr true)
  | unsetFalse (k : Nat) : op = .unset k → k ∉ ids s → dn l = none → StepCase s op l s (.inr false)
  | read (k : Nat) : op = .isSet k → dn l = none →
      StepCase s op l s (.inr (decide (k ∈ ids s)))
  | set (k : Nat) (s' : Shared) : op = .set k → k ∉ ids s → dn l = none → s'.lo = s.lo →
      s'.hi = s.hi → s'.ones = s.ones → (bs s').Inv → ids s' = insert k (ids s) →
      StepCase s op l s' (.inl (.setIncr k))
  | unset (k : Nat) (s' : Shared) : op = .unset k → k ∈ ids s → dn l = none → s'.lo = s.lo →
      s'.hi = s.hi → s'.ones = s.ones → (bs s').Inv → ids s' = (ids s).erase k →
      StepCase s op l s' (.inl (.unsetDecr k))
  | incr (k : Nat) : op = .set k → l = .setIncr k →
      StepCase s op l { s with ones := s.ones + 1 } (.inr false)
  | decr (k : Nat) : op = .unset k → l = .unsetDecr k →
      StepCase s op l { s with ones := s.ones - 1 } (.inr true)

theorem step_cases {s : Shared} (h : (bs s).Inv) {op : Op} {l : Loc} (hl : LocOk op l)
    (hok : ok s.lo s.hi op) : ∃ s' out, step s l = some (s', out) ∧ StepCase s op l s' out := by
  have hset : ∀ k w, op = .set k → dn l = none → ((w &&& mask k ≠ 0#32) ↔ k ∈ ids s) →
      StepCase s op l s (setTest k w) := by
    intro k w ho hd hw
    unfold setTest
    by_cases hb : w &&& mask k ≠ 0#32
    · rw [if_pos hb]; exact .setTrue k ho (hw.1 hb) hd
    · rw [if_neg hb]
      exact .move _ ⟨ho, not_not.1 hb⟩ hd rfl
  have hunset : ∀ k w, op = .unset k → dn l = none → ((w &&& mask k ≠ 0#32) ↔ k ∈ ids s) →
      StepCase s op l s (unsetTest k w) := by
    intro k w ho hd hw
    unfold unsetTest
    by_cases hb : w &&& mask k ≠ 0#32
    · rw [if_pos hb]
      exact .move _ ⟨ho, hb⟩ hd rfl
    · rw [if_neg hb]
      exact .unsetFalse k ho (fun hk => hb (hw.2 hk)) hd
  cases l with
  | setLoad k =>
    have hl : op = .set k := hl
    subst hl
    obtain ⟨w, hw1, hw2⟩ := load_spec h hok.1 hok.2
    exact ⟨_, _, by simp only [step, hw1, Option.map_some], hset k w rfl rfl hw2⟩
  | setCas k val =>
    obtain ⟨rfl, hv⟩ := hl
    obtain ⟨w, hw1, hw2⟩ := load_spec h hok.1 hok.2
    by_cases hc : w = val
    · subst hc
      have hst := store_set h hok.1 hok.2 hw1
      refine ⟨_, _, by simp only [step, hw1, Option.map_some, if_true]; rfl, ?_⟩
      exact .set k _ rfl (fun hk => hw2.2 hk hv) rfl rfl rfl rfl hst.1 hst.2
    · exact ⟨_, _, by simp only [step, hw1, Option.map_some, if_neg hc], hset k w rfl rfl hw2⟩
  | setIncr k =>
    exact ⟨_, _, rfl, .incr k hl rfl⟩
  | unsetLoad k =>
    have hl : op = .unset k := hl
    subst hl
    obtain ⟨w, hw1, hw2⟩ := load_spec h hok.1 hok.2
    exact ⟨_, _, by simp only [step, hw1, Option.map_some], hunset k w rfl rfl hw2⟩
  | unsetCas k val =>
    obtain ⟨rfl, hv⟩ := hl
    obtain ⟨w, hw1, hw2⟩ := load_spec h hok.1 hok.2
    by_cases hc : w = val
    · subst hc
      have hst := store_unset h hok.1 hok.2 hw1
      refine ⟨_, _, by simp only [step, hw1, Option.map_some, if_true]; rfl, ?_⟩
      exact .unset k _ rfl (hw2.1 hv) rfl rfl rfl rfl hst.1 hst.2
    · exact ⟨_, _, by simp only [step, hw1, Option.map_some, if_neg hc], hunset k w rfl rfl hw2⟩
  | unsetDecr k =>
    exact ⟨_, _, rfl, .decr k hl rfl⟩
  | isSet k =>
    have hl : op = .isSet k := hl
    subst hl
    by_cases hb : s.lo ≤ k ∧ k < s.hi
    · obtain ⟨w, hw1, hw2⟩ := load_spec h hb.1 hb.2
      refine ⟨_, _, by simp only [step, if_pos hb, hw1, Option.map_some]; rfl, ?_⟩
      have e : BitSet.test w k = decide (k ∈ ids s) := by
        rw [BitSet.test_eq, ← BitSet.and_shift w (k % 32) (Nat.mod_lt _ (by omega)),
          Bool.eq_iff_iff, decide_eq_true_iff, bne_iff_ne]
        exact hw2
      rw [e]
      exact .read k rfl rfl
    · refine ⟨_, _, by simp only [step, if_neg hb]; rfl, ?_⟩
      have : k ∉ ids s := by
        unfold ids
        rw [BitSet.mem_keys]
        exact fun hk => hb hk.1
      have e : false = decide (k ∈ ids s) := by simp [this]
      rw [e]
      exact .read k rfl rfl

theorem start_ok {s : Shared} (h : (bs s).Inv) {op : Op} (hok : ok s.lo s.hi op) :
    LocOk op (start op) := by
  have hmax : s.hi ≤ 2 ^ 32 := h.max
  cases op with
  | set k =>
    have : k % 2 ^ 32 = k := Nat.mod_eq_of_lt (Nat.lt_of_lt_of_le hok.2 hmax)
    simp only [start, LocOk, BitSet.key, this]
  | unset k =>
    have : k % 2 ^ 32 = k := Nat.mod_eq_of_lt (Nat.lt_of_lt_of_le hok.2 hmax)
    simp only [start, LocOk, BitSet.key, this]
  | isSet k =>
    have : k % 2 ^ 32 = k := Nat.mod_eq_of_lt hok
    simp only [start, LocOk, BitSet.key, this]

theorem dn_start (op : Op) : dn (start op) = none := by cases op <;> rfl

theorem dn_none {A : Active Loc Op} (h : dn A.loc = none) (k : Nat) :
    pset k (some A) = false ∧ punset k (some A) = false ∧ psetA (some A) = false ∧
      punsetA (some A) = false := by
  obtain ⟨op, l, st⟩ := A
  cases l <;> simp [dn] at h <;> exact ⟨rfl, rfl, rfl, rfl⟩

theorem hist_inv {n : Nat} (k : Nat) (h : List (Ev n Op Bool)) (t : Fin n) (op : Op) :
    setWins k (h ++ [.inv t op]) = setWins k h ∧ unsetWins k (h ++ [.inv t op]) = unsetWins k h := by
  simp [setWins, unsetWins, List.countP_append]

theorem hist_res {n : Nat} (k : Nat) (h : List (Ev n Op Bool)) (t : Fin n) (op : Op) (r : Bool) :
    setWins k (h ++ [.res t op r]) = setWins k h + (if op = .set k ∧ r = false then 1 else 0) ∧
    unsetWins k (h ++ [.res t op r]) = unsetWins k h + (if op = .unset k ∧ r = true then 1 else 0) := by
  unfold setWins unsetWins
  rw [List.countP_append, List.countP_append, List.countP_singleton, List.countP_singleton]
  constructor
  · congr 1
    cases op <;> cases r <;> simp
  · congr 1
    cases op <;> cases r <;> simp

theorem init_inv {n : Nat} {s0 : Shared} (h : (bs s0).Inv) (hc : s0.ones = (ids s0).card) :
    CInv s0 (Config.init n s0 : Config n Shared Loc Op Bool) := by
  refine ⟨rfl, rfl, h, by simp [Config.init], ?_, ?_⟩
  · rw [cnt_eq_zero (fun t => rfl), cnt_eq_zero (fun t => rfl)]
    simp [Config.init, hc]
  · intro k
    rw [cnt_eq_zero (fun t => rfl), cnt_eq_zero (fun t => rfl)]
    change _ + 0 + 0 = 0 + 0 + _
    rw [Nat.add_zero, Nat.add_zero, Nat.zero_add]
    rfl

theorem step_inv {n : Nat} {s0 : Shared} {c c' : Config n Shared Loc Op Bool} (h : CInv s0 c)
    (hs : Step obj (ok s0.lo s0.hi) c c') : CInv s0 c' := by
  have hok' : ∀ op, ok s0.lo s0.hi op ↔ ok c.sh.lo c.sh.hi op := by
    intro op; rw [h.lo, h.hi]
  cases hs with
  | call t op hidle hop =>
    have hn : ∀ k, pset k (some ⟨op, start op, 0⟩) = false ∧ punset k (some ⟨op, start op, 0⟩) = false ∧
      psetA (some ⟨op, start op, 0⟩) = false ∧ punsetA (some ⟨op, start op, 0⟩) = false :=
      dn_none (A := ⟨op, start op, 0⟩) (dn_start op)
    refine ⟨h.lo, h.hi, h.inv, ?_, ?_, ?_⟩
    · intro u A hu
      replace hu := upd_cases hu
      rcases hu with ⟨rfl, hu⟩ | ⟨hne, hu⟩
      · injection hu with hu
        subst hu
        exact ⟨start_ok h.inv ((hok' op).1 hop), hop⟩
      · exact h.loc u A hu
    · simp only
      rw [cnt_update_same (by rw [hidle]; exact (hn 0).2.2.1),
        cnt_update_same (by rw [hidle]; exact (hn 0).2.2.2)]
      exact h.cnt
    · intro k
      simp only
      rw [(hist_inv k _ t op).1, (hist_inv k _ t op).2,
        cnt_update_same (by rw [hidle]; exact (hn k).1),
        cnt_update_same (by rw [hidle]; exact (hn k).2.1)]
      exact h.bal k
  | internal t A s' l' hth hstp =>
    obtain ⟨hl, hop⟩ := h.loc t A hth
    obtain ⟨s1, out, he, hcase⟩ := step_cases h.inv hl ((hok' _).1 hop)
    have he' : step c.sh A.loc = some (s', .inl l') := hstp
    rw [he'] at he
    injection he with he
    injection he with he1 he2
    subst he1 he2
    have hloc : ∀ (hl' : LocOk A.op l') (u : Fin n) (B : Active Loc Op),
        Function.update c.th t (some ⟨A.op, l', A.steps + 1⟩) u = some B →
        LocOk B.op B.loc ∧ ok s0.lo s0.hi B.op := by
      intro hl' u B hu
      replace hu := upd_cases hu
      rcases hu with ⟨rfl, hu⟩ | ⟨hne, hu⟩
      · injection hu with hu
        subst hu
        exact ⟨hl', hop⟩
      · exact h.loc u B hu
    cases hcase with
    | move _ hl' hd hd' =>
      have hA := fun k => dn_none (A := A) hd k
      have hB := fun k => dn_none (A := ⟨A.op, l', A.steps + 1⟩) hd' k
      refine ⟨h.lo, h.hi, h.inv, hloc hl', ?_, ?_⟩
      · simp only
        rw [cnt_update_same (by rw [hth, (hA 0).2.2.1, (hB 0).2.2.1]),
          cnt_update_same (by rw [hth, (hA 0).2.2.2, (hB 0).2.2.2])]
        exact h.cnt
      · intro k
        simp only
        rw [cnt_update_same (by rw [hth, (hA k).1, (hB k).1]),
          cnt_update_same (by rw [hth, (hA k).2.1, (hB k).2.1])]
        exact h.bal k
    | set k _ ho hk hd e1 e2 e3 e4 e5 =>
      have hA := fun k => dn_none (A := A) hd k
      refine ⟨e1.trans h.lo, e2.trans h.hi, e4, hloc ho, ?_, ?_⟩
      · simp only
        rw [cnt_update_add (by rw [hth]; exact (hA 0).2.2.1) rfl,
          cnt_update_same (by rw [hth, (hA 0).2.2.2]; rfl), e5, Finset.card_insert_of_notMem hk, e3]
        have := h.cnt
        push_cast
        omega
      · intro x
        simp only
        have hb := h.bal x
        rw [cnt_update_same (p := punset x) (by rw [hth, (hA x).2.1]; rfl)]
        simp only [e5, Finset.mem_insert]
        by_cases hx : k = x
        · subst hx
          rw [cnt_update_add (by rw [hth]; exact (hA k).1) (by simp [pset])]
          rw [if_neg hk] at hb
          simp only [true_or, if_true]
          omega
        · rw [cnt_update_same (p := pset x) (by rw [hth, (hA x).1]; simp [pset, hx])]
          simp only [Ne.symm hx, false_or]
          exact hb
    | unset k _ ho hk hd e1 e2 e3 e4 e5 =>
      have hA := fun k => dn_none (A := A) hd k
      refine ⟨e1.trans h.lo, e2.trans h.hi, e4, hloc ho, ?_, ?_⟩
      · simp only
        have hpos : 0 < (ids c.sh).card := Finset.card_pos.2 ⟨k, hk⟩
        rw [cnt_update_add (p := punsetA) (by rw [hth]; exact (hA 0).2.2.2) rfl,
          cnt_update_same (by rw [hth, (hA 0).2.2.1]; rfl), e5, Finset.card_erase_of_mem hk, e3]
        have := h.cnt
        push_cast [hpos]
        omega
      · intro x
        simp only
        have hb := h.bal x
        rw [cnt_update_same (p := pset x) (by rw [hth, (hA x).1]; rfl)]
        simp only [e5, Finset.mem_erase]
        by_cases hx : k = x
        · subst hx
          rw [cnt_update_add (by rw [hth]; exact (hA k).2.1) (by simp [punset])]
          rw [if_pos hk] at hb
          simp only [ne_eq, not_true, false_and, if_false]
          omega
        · rw [cnt_update_same (p := punset x) (by rw [hth, (hA x).2.1]; simp [punset, hx])]
          simp only [ne_eq, Ne.symm hx, not_false_eq_true, true_and]
          exact hb
  | ret t A s' r hth hstp =>
    obtain ⟨hl, hop⟩ := h.loc t A hth
    obtain ⟨s1, out, he, hcase⟩ := step_cases h.inv hl ((hok' _).1 hop)
    have he' : step c.sh A.loc = some (s', .inr r) := hstp
    rw [he'] at he
    injection he with he
    injection he with he1 he2
    subst he1 he2
    have hloc : ∀ (u : Fin n) (B : Active Loc Op), Function.update c.th t none u = some B →
        LocOk B.op B.loc ∧ ok s0.lo s0.hi B.op := by
      intro u B hu
      replace hu := upd_cases hu
      rcases hu with ⟨rfl, hu⟩ | ⟨hne, hu⟩
      · cases hu
      · exact h.loc u B hu
    have hquiet : dn A.loc = none → c.sh.ones + Conc.cnt psetA (Function.update c.th t none) =
        (ids c.sh).card + Conc.cnt punsetA (Function.update c.th t none) := by
      intro hd
      have hA := dn_none (A := A) hd 0
      rw [cnt_update_same (p := psetA) (by rw [hth, hA.2.2.1]; rfl),
        cnt_update_same (p := punsetA) (by rw [hth, hA.2.2.2]; rfl)]
      exact h.cnt
    have hquiet2 : dn A.loc = none → ∀ k, (if k ∈ ids s0 then 1 else 0) + setWins k c.hist +
        Conc.cnt (pset k) (Function.update c.th t none) = unsetWins k c.hist +
        Conc.cnt (punset k) (Function.update c.th t none) + (if k ∈ ids c.sh then 1 else 0) := by
      intro hd k
      have hA := dn_none (A := A) hd k
      rw [cnt_update_same (p := pset k) (by rw [hth, hA.1]; rfl),
        cnt_update_same (p := punset k) (by rw [hth, hA.2.1]; rfl)]
      exact h.bal k
    obtain ⟨Aop, Aloc, Ast⟩ := A
    simp only at hcase hquiet hquiet2 hl hop
    cases hcase with
    | setTrue k ho hk hd =>
      refine ⟨h.lo, h.hi, h.inv, hloc, hquiet hd, fun x => ?_⟩
      simp only
      rw [(hist_res x _ t _ _).1, (hist_res x _ t _ _).2, ho]
      simpa using hquiet2 hd x
    | unsetFalse k ho hk hd =>
      refine ⟨h.lo, h.hi, h.inv, hloc, hquiet hd, fun x => ?_⟩
      simp only
      rw [(hist_res x _ t _ _).1, (hist_res x _ t _ _).2, ho]
      simpa using hquiet2 hd x
    | read k ho hd =>
      refine ⟨h.lo, h.hi, h.inv, hloc, hquiet hd, fun x => ?_⟩
      simp only
      rw [(hist_res x _ t _ _).1, (hist_res x _ t _ _).2, ho]
      simpa using hquiet2 hd x
    | incr k ho hl' =>
      subst hl' ho
      refine ⟨h.lo, h.hi, h.inv, hloc, ?_, fun x => ?_⟩
      · simp only
        have h1 := cnt_update_sub (p := psetA) (f := c.th) (t := t) (x := none) (by rw [hth]; rfl) rfl
        rw [cnt_update_same (p := punsetA) (by rw [hth]; rfl)]
        have := h.cnt
        change c.sh.ones + 1 + _ = ((ids c.sh).card : Int) + _
        omega
      · simp only
        have hb := h.bal x
        rw [(hist_res x _ t _ _).1, (hist_res x _ t _ _).2]
        rw [cnt_update_same (p := punset x) (by rw [hth]; rfl)]
        change _ = _ + (if x ∈ ids c.sh then 1 else 0)
        by_cases hx : k = x
        · subst hx
          have h1 := cnt_update_sub (p := pset k) (f := c.th) (t := t) (x := none)
            (by rw [hth]; simp [pset]) rfl
          simp only [and_self, if_true, reduceCtorEq, false_and, if_false]
          omega
        · rw [cnt_update_same (p := pset x) (by rw [hth]; simp [pset, hx])]
          simp only [Op.set.injEq, hx, false_and, if_false, reduceCtorEq]
          omega
    | decr k ho hl' =>
      subst hl' ho
      refine ⟨h.lo, h.hi, h.inv, hloc, ?_, fun x => ?_⟩
      · simp only
        have h1 := cnt_update_sub (p := punsetA) (f := c.th) (t := t) (x := none) (by rw [hth]; rfl) rfl
        rw [cnt_update_same (p := psetA) (by rw [hth]; rfl)]
        have := h.cnt
        change c.sh.ones - 1 + _ = ((ids c.sh).card : Int) + _
        omega
      · simp only
        have hb := h.bal x
        rw [(hist_res x _ t _ _).1, (hist_res x _ t _ _).2]
        rw [cnt_update_same (p := pset x) (by rw [hth]; rfl)]
        change _ = _ + (if x ∈ ids c.sh then 1 else 0)
        by_cases hx : k = x
        · subst hx
          have h1 := cnt_update_sub (p := punset k) (f := c.th) (t := t) (x := none)
            (by rw [hth]; simp [punset]) rfl
          simp only [and_self, if_true, reduceCtorEq, false_and, if_false]
          omega
        · rw [cnt_update_same (p := punset x) (by rw [hth]; simp [punset, hx])]
          simp only [Op.unset.injEq, hx, false_and, if_false, reduceCtorEq]
          omega

theorem reach_inv {n : Nat} {s0 : Shared} (h0 : (bs s0).Inv) (hc : s0.ones = (ids s0).card)
    {c : Config n Shared Loc Op Bool} (h : Reach obj (ok s0.lo s0.hi) s0 c) : CInv s0 c :=
  Reach.induct (P := CInv s0) (init_inv h0 hc) (fun _ _ _ hP hstep => step_inv hP hstep) h

theorem sim {n : Nat} {s0 : Shared} (h0 : (bs s0).Inv) (hc : s0.ones = (ids s0).card)
    {c : Config n Shared Loc Op Bool} (h : Reach obj (ok s0.lo s0.hi) s0 c) :
    Linearizable spec (ids s0) c.hist := by
  refine linearizable_of_sim (dn := dn) (Abs := ids) (fun op => dn_start op) ?_ h
  intro c t A hr hth s' out hstp
  have hinv := reach_inv h0 hc hr
  obtain ⟨hl, hop⟩ := hinv.loc t A hth
  obtain ⟨s1, out1, he, hcase⟩ := step_cases hinv.inv hl (by rw [hinv.lo, hinv.hi]; exact hop)
  have he' : step c.sh A.loc = some (s', out) := hstp
  rw [he'] at he
  injection he with he
  injection he with he1 he2
  subst he1 he2
  obtain ⟨Aop, Aloc, Ast⟩ := A
  unfold SimStep
  cases hcase with
  | move l' _ hd hd' => simp only [hd, hd']
  | setTrue k ho hk hd =>
    simp only at ho
    subst ho
    simp only [hd]
    exact ⟨by simp [hk], (Finset.insert_eq_of_mem hk).symm⟩
  | unsetFalse k ho hk hd =>
    simp only at ho
    subst ho
    simp only [hd]
    exact ⟨by simp [hk], (Finset.erase_eq_of_notMem hk).symm⟩
  | read k ho hd =>
    simp only at ho
    subst ho
    simp only [hd]
    exact ⟨rfl, rfl⟩
  | set k _ ho hk hd _ _ _ _ e5 =>
    simp only at ho
    subst ho
    simp only [hd]
    exact ⟨by simp [hk], e5⟩
  | unset k _ ho hk hd _ _ _ _ e5 =>
    simp only at ho
    subst ho
    simp only [hd]
    exact ⟨by simp [hk], e5⟩
  | incr k ho hl' =>
    simp only at ho hl'
    subst ho hl'
    simp only [dn]
    exact ⟨rfl, trivial⟩
  | decr k ho hl' =>
    simp only at ho hl'
    subst ho hl'
    simp only [dn]
    exact ⟨rfl, trivial⟩

end ConcBitSet
end Verif
