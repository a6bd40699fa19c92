import Verif.Lemmas.ConcBitSet
import Verif.Props.BitSet

/-!
# Properties of the lock-free bit set (C22)
-/
namespace Verif
namespace ConcBitSet
open Conc

variable {n : Nat}

/-- Completed calls of `testAndSet(k)` imply that the bit is set, if nobody cleared it. -/
def Kept (c : Config n Shared Loc Op Bool) : Prop :=
  (∀ t A, c.th t = some A → Ev.inv t A.op ∈ c.hist) ∧
  (∀ t op r, Ev.res t op r ∈ c.hist → Ev.inv t op ∈ c.hist) ∧
  ∀ k, (∀ t, Ev.inv t (Op.unset k) ∉ c.hist) → (∃ t r, Ev.res t (Op.set k) r ∈ c.hist) → k ∈ ids c.sh

theorem no_unset {s0 : Shared} {c : Config n Shared Loc Op Bool} (h : CInv s0 c) (hk : Kept c) {k : Nat}
    (hnone : ∀ t, Ev.inv t (Op.unset k) ∉ c.hist) :
    unsetWins k c.hist = 0 ∧ Conc.cnt (punset k) c.th = 0 := by
  obtain ⟨hk1, hk3, hk2⟩ := hk
  constructor
  · unfold unsetWins
    rw [List.countP_eq_zero]
    intro e he
    split
    · rename_i t k'
      intro hkk
      have hkk := of_decide_eq_true hkk
      subst hkk
      exact hnone t (hk3 t _ _ he)
    · simp
  · apply cnt_eq_zero
    intro t
    cases hth : c.th t with
    | none => rfl
    | some A =>
      obtain ⟨op, l, st⟩ := A
      have hl := (h.loc t _ hth).1
      have hi := hk1 t _ hth
      cases l <;> try rfl
      simp only [LocOk] at hl
      subst hl
      simp only [punset, decide_eq_false_iff_not]
      rintro rfl
      exact hnone t hi

theorem kept_step {s0 : Shared} {c c' : Config n Shared Loc Op Bool} (h : CInv s0 c) (hk : Kept c)
    (hs : Step obj (ok s0.lo s0.hi) c c') : Kept c' := by
  have hk0 := hk
  obtain ⟨hk1, hk3, hk2⟩ := hk
  cases hs with
  | call t op hidle hop =>
    refine ⟨?_, ?_, ?_⟩
    · intro u A hu
      replace hu := ConcMap.upd_cases hu
      rcases hu with ⟨rfl, hu⟩ | ⟨hne, hu⟩
      · injection hu with hu
        subst hu
        simp
      · simp [hk1 u A hu]
    · intro u op' r hr
      simp only [List.mem_append, List.mem_singleton, reduceCtorEq, or_false] at hr ⊢
      exact Or.inl (hk3 u op' r hr)
    · rintro k hnone ⟨u, r, hr⟩
      simp only [List.mem_append, List.mem_singleton, reduceCtorEq, or_false] at hr
      exact hk2 k (fun t ht => hnone t (by simp [ht])) ⟨u, r, hr⟩
  | internal t A s' l' hth hstp =>
    obtain ⟨hl, hop⟩ := h.loc t A hth
    obtain ⟨s1, out, he, hcase⟩ := step_cases h.inv hl (by rw [h.lo, h.hi]; exact hop)
    have he' : step c.sh A.loc = some (s', .inl l') := hstp
    rw [he'] at he
    injection he with he
    injection he with he1 he2
    subst he1 he2
    refine ⟨?_, ?_, ?_⟩
    · intro u B hu
      replace hu := ConcMap.upd_cases hu
      rcases hu with ⟨rfl, hu⟩ | ⟨hne, hu⟩
      · injection hu with hu
        subst hu
        exact hk1 u A hth
      · exact hk1 u B hu
    · exact hk3
    · rintro k hnone ⟨u, r, hr⟩
      have hin := hk2 k hnone ⟨u, r, hr⟩
      cases hcase with
      | move => exact hin
      | set k' _ ho _ _ _ _ _ _ e5 =>
        simp only [e5]
        exact Finset.mem_insert_of_mem hin
      | unset k' _ ho _ _ _ _ _ _ e5 =>
        simp only [e5]
        rw [Finset.mem_erase]
        refine ⟨?_, hin⟩
        rintro rfl
        have := hk1 t A hth
        rw [ho] at this
        exact hnone t this
  | ret t A s' r hth hstp =>
    obtain ⟨hl, hop⟩ := h.loc t A hth
    obtain ⟨s1, out, he, hcase⟩ := step_cases h.inv hl (by rw [h.lo, h.hi]; exact hop)
    have he' : step c.sh A.loc = some (s', .inr r) := hstp
    rw [he'] at he
    injection he with he
    injection he with he1 he2
    subst he1 he2
    have hids : ids s' = ids c.sh := by cases hcase <;> rfl
    refine ⟨?_, ?_, ?_⟩
    · intro u B hu
      replace hu := ConcMap.upd_cases hu
      rcases hu with ⟨rfl, hu⟩ | ⟨hne, hu⟩
      · cases hu
      · simp [hk1 u B hu]
    · intro u op' r' hr
      simp only [List.mem_append, List.mem_singleton, reduceCtorEq, or_false] at hr ⊢
      rcases hr with hr | hr
      · exact hk3 u op' r' hr
      · injection hr with hr0 hr1 hr2
        subst hr0 hr1
        exact hk1 _ _ hth
    · rintro k hnone ⟨u, r', hr⟩
      have hnone' : ∀ t, Ev.inv t (Op.unset k) ∉ c.hist := fun t ht => hnone t (by simp [ht])
      simp only [List.mem_append, List.mem_singleton] at hr
      rcases hr with hr | hr
      · simp only [hids]
        exact hk2 k hnone' ⟨u, r', hr⟩
      · injection hr with _ hr1 hr2
        simp only [hids]
        obtain ⟨Aop, Aloc, Ast⟩ := A
        simp only at hcase hr1 hl
        cases hcase with
        | setTrue k' ho hk hd =>
          rw [ho] at hr1
          injection hr1 with hr1
          subst hr1
          exact hk
        | unsetFalse k' ho => rw [ho] at hr1; cases hr1
        | read k' ho => rw [ho] at hr1; cases hr1
        | decr k' ho => rw [ho] at hr1; cases hr1
        | incr k' ho hl' =>
          rw [ho] at hr1
          injection hr1 with hr1
          subst hr1 hl'
          by_contra hkk
          -- the balance of the bit forces a pending or completed clear
          have hb := h.bal k
          have hpos : 0 < Conc.cnt (pset k) c.th := cnt_pos (t := t) (by rw [hth]; simp [pset])
          rw [if_neg hkk] at hb
          have hz := no_unset h hk0 hnone'
          omega

theorem kept_reach {s0 : Shared} (h0 : (bs s0).Inv) (hc : s0.ones = (ids s0).card)
    {c : Config n Shared Loc Op Bool} (h : Reach obj (ok s0.lo s0.hi) s0 c) : Kept c :=
  Reach.induct (P := Kept) ⟨by simp [Config.init], by simp [Config.init], by simp [Config.init]⟩
    (fun _ _ hr hP hstep => kept_step (reach_inv h0 hc hr) hP hstep) h

/-- The initial state after building a bit set sequentially. -/
theorem init_ok (p : BitSet.BitProg) (hp : p.Valid) (hsz : p.SizeOk) {s : BitSet}
    (hs : p.run = some s) : (bs (ofBitSet s)).Inv ∧ ids (ofBitSet s) = p.ids ∧
      (ofBitSet s).ones = (ids (ofBitSet s)).card ∧ s.lo = p.range.1 ∧ s.hi = p.range.2 := by
  obtain ⟨s', e1, e2, e3, e4, e5, e6⟩ := p.run_ok hp
  rw [hs] at e1
  injection e1 with e1
  subst e1
  have hk : ids (ofBitSet s) = p.ids := e5
  refine ⟨⟨e2.lo32, e2.hi32, e2.le, e2.len, e2.max⟩, hk, ?_, e3, e4⟩
  rw [hk]
  simp only [ofBitSet]
  rw [e6 hsz]

/-- Calls inside of the given range of ids (32-bit ids for reads). -/
def okB (l u : Nat) : Op → Bool
  | .set k | .unset k => decide (l ≤ k ∧ k < u)
  | .isSet k => decide (k < 2 ^ 32)

theorem okB_iff (l u : Nat) (op : Op) : okB l u op = true ↔ ok l u op := by
  cases op <;> simp [okB, ok]

/-- **C22** (safety and linearizability) For every bit set built by a client and then shared by any
number of threads, in every interleaving of `testAndSet`, `testAndUnset` and `isSet`: no access is
undefined, and every call takes effect atomically between its call and its return, as an operation
on a finite set, returning the previous state of its bit. In particular other bits of a block are
unaffected. -/
theorem C22_linearizable (p : BitSet.BitProg) (hp : p.Valid) (hsz : p.SizeOk) (s : BitSet)
    (hs : p.run = some s) (c : Config n Shared Loc Op Bool)
    (hc : Reach obj (ok p.range.1 p.range.2) (ofBitSet s) c) :
    ¬ c.undef obj ∧ Linearizable spec p.ids c.hist := by
  obtain ⟨h1, h2, h3, h4, h5⟩ := init_ok p hp hsz hs
  rw [← h4, ← h5] at hc
  have hinv := reach_inv h1 h3 hc
  constructor
  · rintro ⟨t, A, hA, hstep⟩
    obtain ⟨hl, hop⟩ := hinv.loc t A hA
    obtain ⟨s', out, he, _⟩ := step_cases hinv.inv hl (by rw [hinv.lo, hinv.hi]; exact hop)
    have : step c.sh A.loc = none := hstep
    rw [this] at he
    cases he
  · have := sim h1 h3 hc
    rwa [h2] at this

/-- **C22** (exactly one winner) If bit `k` is clear at the beginning and nobody calls
`testAndUnset(k)`, at most one `testAndSet(k)` reports that it set the bit; once no call is running
and one has completed, exactly one has reported it. -/
theorem C22_one_winner (p : BitSet.BitProg) (hp : p.Valid) (hsz : p.SizeOk) (s : BitSet)
    (hs : p.run = some s) (c : Config n Shared Loc Op Bool)
    (hc : Reach obj (ok p.range.1 p.range.2) (ofBitSet s) c) (k : Nat) (hk : k ∉ p.ids)
    (hnone : ∀ t, Ev.inv t (Op.unset k) ∉ c.hist) :
    setWins k c.hist ≤ 1 ∧
    (c.quiescent → (∃ t r, Ev.res t (Op.set k) r ∈ c.hist) → setWins k c.hist = 1) := by
  obtain ⟨h1, h2, h3, h4, h5⟩ := init_ok p hp hsz hs
  rw [← h4, ← h5] at hc
  have hinv := reach_inv h1 h3 hc
  have hkept := kept_reach h1 h3 hc
  have hz := no_unset hinv hkept hnone
  have hb := hinv.bal k
  rw [h2, if_neg hk] at hb
  constructor
  · split at hb <;> omega
  · intro hq hex
    have hin := hkept.2.2 k hnone hex
    rw [if_pos hin, cnt_eq_zero (fun t => by rw [hq t]; rfl)] at hb
    omega

/-- **C22** (alternation) In general successful sets and successful clears of a bit alternate: at
quiescence the number of successful `testAndSet(k)` (plus one if the bit was set initially) exceeds
the number of successful `testAndUnset(k)` by one if the bit is set and by zero if it is clear. -/
theorem C22_balance (p : BitSet.BitProg) (hp : p.Valid) (hsz : p.SizeOk) (s : BitSet)
    (hs : p.run = some s) (c : Config n Shared Loc Op Bool)
    (hc : Reach obj (ok p.range.1 p.range.2) (ofBitSet s) c) (hq : c.quiescent) (k : Nat)
    (hk : k < 2 ^ 32) (b : Bool) (hb : (toBitSet c.sh).isSet k = some b) :
    (if k ∈ p.ids then 1 else 0) + setWins k c.hist = unsetWins k c.hist + b.toNat := by
  obtain ⟨h1, h2, h3, h4, h5⟩ := init_ok p hp hsz hs
  rw [← h4, ← h5] at hc
  have hinv := reach_inv h1 h3 hc
  have hbal := hinv.bal k
  rw [h2, cnt_eq_zero (fun t => by rw [hq t]; rfl), cnt_eq_zero (fun t => by rw [hq t]; rfl)] at hbal
  have hI : (toBitSet c.sh).Inv :=
    ⟨hinv.inv.lo32, hinv.inv.hi32, hinv.inv.le, hinv.inv.len, hinv.inv.max⟩
  rw [BitSet.isSet_spec hI hk] at hb
  injection hb with hb
  have hb' : decide (k ∈ ids c.sh) = b := hb
  subst hb'
  by_cases hm : k ∈ ids c.sh
  · rw [if_pos hm] at hbal
    simp only [hm, decide_true, Bool.toNat_true]
    omega
  · rw [if_neg hm] at hbal
    simp only [hm, decide_false, Bool.toNat_false]
    omega

/-- **C22** (size) When no call is running, `size()` is the number of ids whose bit is set, also after
conversion to a sequential bit set. -/
theorem C22_size (p : BitSet.BitProg) (hp : p.Valid) (hsz : p.SizeOk) (s : BitSet)
    (hs : p.run = some s) (c : Config n Shared Loc Op Bool)
    (hc : Reach obj (ok p.range.1 p.range.2) (ofBitSet s) c) (hq : c.quiescent) :
    ∃ F : Finset Nat, (∀ k < 2 ^ 32, (toBitSet c.sh).isSet k = some (decide (k ∈ F))) ∧
      (∀ k ∈ F, k < 2 ^ 32) ∧ size c.sh = F.card ∧ (toBitSet c.sh).size = F.card := by
  obtain ⟨h1, h2, h3, h4, h5⟩ := init_ok p hp hsz hs
  rw [← h4, ← h5] at hc
  have hinv := reach_inv h1 h3 hc
  have hI : (toBitSet c.sh).Inv :=
    ⟨hinv.inv.lo32, hinv.inv.hi32, hinv.inv.le, hinv.inv.len, hinv.inv.max⟩
  have hcnt := hinv.cnt
  rw [cnt_eq_zero (fun t => by rw [hq t]; rfl), cnt_eq_zero (fun t => by rw [hq t]; rfl)] at hcnt
  have hlt : ∀ k ∈ ids c.sh, k < 2 ^ 32 := fun k hk =>
    Nat.lt_of_lt_of_le ((BitSet.mem_keys _ _).1 hk).1.2 hinv.inv.max
  have hcard : (ids c.sh).card ≤ 2 ^ 32 := by
    calc (ids c.sh).card ≤ (Finset.range (2 ^ 32)).card :=
          Finset.card_le_card fun k hk => Finset.mem_range.2 (hlt k hk)
      _ = 2 ^ 32 := Finset.card_range _
  have hsize : (c.sh.ones % 2 ^ 64).toNat = (ids c.sh).card := by
    have : c.sh.ones = ((ids c.sh).card : Int) := by simpa using hcnt
    rw [this]
    generalize (ids c.sh).card = m at hcard
    omega
  exact ⟨ids c.sh, fun k hk => BitSet.isSet_spec hI hk, hlt, hsize, hsize⟩

/-- The hypotheses are met by a run in which two threads race for a bit and one loses. -/
example : ∃ c, Reach (n := 2) obj (ok 0 32) (ofBitSet (BitSet.new 0 32)) c ∧
    c.hist = [.inv 0 (.set 3), .inv 1 (.set 3), .res 0 (.set 3) false, .res 1 (.set 3) true] :=
  exec_hist (ok := okB 0 32) (fun op h => (okB_iff 0 32 op).1 h)
    (l := [.call 0 (.set 3), .call 1 (.set 3), .run 0, .run 1, .run 0, .run 0, .run 1])
    (by decide +kernel)

example : (BitSet.BitProg.new 0 32).Valid ∧ (BitSet.BitProg.new 0 32).SizeOk ∧
    (BitSet.BitProg.new 0 32).run = some (BitSet.new 0 32) ∧
    (BitSet.BitProg.new 0 32).range = (0, 32) := by
  simp [BitSet.BitProg.Valid, BitSet.BitProg.SizeOk, BitSet.BitProg.run, BitSet.BitProg.range]

/-- Outside of quiescent states `size()` may be off, even below zero: here one thread has set the
only bit and not counted it yet while another has cleared and counted it, so the `size_t` counter
wraps around. -/
theorem C22_size_needs_quiescence : ∃ c, Reach (n := 2) obj (ok 0 32) (ofBitSet (BitSet.new 0 32)) c ∧
    size c.sh = 2 ^ 64 - 1 := by
  have h : (exec obj (okB 0 32) (Config.init 2 (ofBitSet (BitSet.new 0 32)))
      [.call 0 (.set 3), .run 0, .run 0, .call 1 (.unset 3), .run 1, .run 1, .run 1]).map
        (fun c => size c.sh) = some (2 ^ 64 - 1) := by decide +kernel
  cases hc : exec obj (okB 0 32) (Config.init 2 (ofBitSet (BitSet.new 0 32)))
      [.call 0 (.set 3), .run 0, .run 0, .call 1 (.unset 3), .run 1, .run 1, .run 1] with
  | none => rw [hc] at h; cases h
  | some c =>
    rw [hc] at h
    injection h with h
    exact ⟨c, reach_mono (fun op h => (okB_iff 0 32 op).1 h) (exec_reach .init hc), h⟩

end ConcBitSet
end Verif
