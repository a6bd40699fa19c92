import Verif.Lemmas.ConcMap

/-!
# Properties of the lock-free hash map: C13
-/
namespace Verif
namespace ConcMap
open Conc

/-- The executions considered: any number `n` of threads, calling `insert(k, v)` and `get(k)` with
non-zero keys, on a map constructed with some initial size, in any interleaving. -/
def Execution (a size : Nat) {n : Nat} (c : Config n Shared Loc MapOp MapRet) : Prop :=
  Reach (obj a) (fun op => op.key ≠ 0) (new a size) c

theorem exec_inv {a size n : Nat} {c : Config n Shared Loc MapOp MapRet}
    (hs : 1 ≤ size) (h : Execution a size c) : ∃ p, nextPow2 size = 2 ^ p ∧ MInv p a c := by
  obtain ⟨p, hp⟩ := nextPow2_isPow hs
  refine ⟨p, hp, reach_inv ?_⟩
  have : new a size = ⟨List.replicate (2 ^ p) 0, List.replicate (2 ^ p) none, 0, a⟩ := by
    unfold new; rw [hp]
  rw [← this]
  exact h

/-- **C13 (partial).** Whenever a `get(k)` returns `v`, then either some `insert(k, v)` was called
before, or `v = 0` and no `insert(k, _)` had completed by then.
Missing: a `get` may also read a value that was never stored (`C13_get_violated`). -/
theorem C13_get_partial (a size n : Nat) (hs : 1 ≤ size) (c : Config n Shared Loc MapOp MapRet)
    (h : Execution a size c) (t : Fin n) (k v : Nat) (h1 h2 : List (Ev n MapOp MapRet))
    (he : c.hist = h1 ++ .res t (.get k) (.val v) :: h2) :
    (∃ t', Ev.inv t' (.insert k v) ∈ h1) ∨
    (v = 0 ∧ ∀ t' w b, Ev.res t' (.insert k w) (.bool b) ∉ h1) := by
  obtain ⟨p, _, hi⟩ := exec_inv hs h
  exact hi.got t k v h1 h2 he

/-- **C13.** A read of an uninitialised value can only happen in a `get(k)` that overlaps with an
`insert(k, _)` for the same key by another thread. -/
theorem C13_undefined_only_in_race (a size n : Nat) (hs : 1 ≤ size)
    (c : Config n Shared Loc MapOp MapRet) (h : Execution a size c) (t : Fin n)
    (A : Active Loc MapOp) (hA : c.th t = some A) (hu : (obj a).step c.sh A.loc = none) :
    ∃ k t' B v, A.op = .get k ∧ t' ≠ t ∧ c.th t' = some B ∧ B.op = .insert k v := by
  obtain ⟨p, _, hi⟩ := exec_inv hs h
  have hloc := hi.loc t A hA
  rw [← hi.ha] at hloc
  rcases step_cases hi.len (by rw [hi.ha]; exact hi.path) hi.vlen hloc with
    ⟨s', out, hst, _⟩ | ⟨_, k, i, _, hop, hk, hki, hvi⟩
  · rw [show (obj a).step c.sh A.loc = step c.sh A.loc from rfl, hst] at hu
    cases hu
  · obtain ⟨t', op, v, st, ht'⟩ := hi.init i k hki hk hvi
    have hl := hi.loc t' _ ht'
    refine ⟨k, t', _, v, hop, ?_, ht', hl.1⟩
    rintro rfl
    rw [hA] at ht'
    injection ht' with ht'
    rw [ht'] at hop
    have : op = .insert k v := hl.1
    rw [this] at hop
    cases hop

/-- **C13.** When no operation is running: no non-zero key occupies two slots, the item counter is
the number of stored keys, every key for which an insertion returned is stored, and each stored key
has a value, which was passed to some insertion of that key. -/
theorem C13_quiescent (a size n : Nat) (hs : 1 ≤ size)
    (c : Config n Shared Loc MapOp MapRet) (h : Execution a size c) (hq : c.quiescent) :
    (c.sh.keys.filter (fun x => decide (x ≠ 0))).Nodup ∧
    c.sh.items = (c.sh.keys.filter (fun x => decide (x ≠ 0))).length ∧
    (∀ t k v b, Ev.res t (.insert k v) (.bool b) ∈ c.hist → k ∈ c.sh.keys) ∧
    (∀ i k : Nat, c.sh.keys[i]? = some k → k ≠ 0 →
      ∃ v t, c.sh.vals[i]? = some (some v) ∧ Ev.inv t (.insert k v) ∈ c.hist) := by
  obtain ⟨p, _, hi⟩ := exec_inv hs h
  refine ⟨?_, ?_, fun t k v b he => (hi.lose t k v b he).2, ?_⟩
  · have := hi.path.nodup
    convert this using 2
    funext x
    by_cases hx : x = 0 <;> simp [hx]
  · have h0 : Conc.cnt isPend c.th = 0 := cnt_eq_zero (fun t => by rw [hq t]; rfl)
    have := hi.cnt
    rw [← List.countP_eq_length_filter]
    rw [h0, Nat.add_zero] at this
    rw [this]
    unfold occ
    congr 1
    funext x
    by_cases hx : x = 0 <;> simp [hx]
  · intro i k hk hk0
    have hil : i < c.sh.vals.length := by rw [hi.vlen]; exact (List.getElem?_eq_some_iff.1 hk).1
    cases hv : c.sh.vals[i] with
    | none =>
      obtain ⟨t, op, v, st, ht⟩ := hi.init i k hk hk0 (by rw [List.getElem?_eq_getElem hil, hv])
      rw [hq t] at ht
      cases ht
    | some v =>
      have hv' : c.sh.vals[i]? = some (some v) := by rw [List.getElem?_eq_getElem hil, hv]
      obtain ⟨k', h1, h2, t, h3⟩ := hi.vals i v hv'
      rw [hk] at h1
      injection h1 with h1
      subst h1
      exact ⟨v, t, hv', h3⟩

/-- **C13 is violated**: thread 0 has written the key but not yet the value, thread 1 finds the key
and reads a value that was never written. -/
theorem C13_get_violated : ∃ c : Config 2 Shared Loc MapOp MapRet,
    Execution 5 4 c ∧ c.hist = [.inv 0 (.insert 3 7), .inv 1 (.get 3)] ∧ c.undef (obj 5) := by
  have hc : nextPow2 4 = 4 := nextPow2_pow 2
  have hx : (exec (obj 5) (fun op => op.key != 0) (Config.init 2 (new 5 4))
      [.call 0 (.insert 3 7), .run 0, .run 0, .run 0, .call 1 (.get 3), .run 1]).map
        (fun c => (c.hist, (c.th 1).map (fun A => (step c.sh A.loc).isNone)))
      = some ([.inv 0 (.insert 3 7), .inv 1 (.get 3)], some true) := by
    unfold new; rw [hc]; decide
  cases he : exec (obj 5) (fun op => op.key != 0) (Config.init 2 (new 5 4))
      [.call 0 (.insert 3 7), .run 0, .run 0, .run 0, .call 1 (.get 3), .run 1] with
  | none => rw [he] at hx; cases hx
  | some c =>
    rw [he] at hx
    simp only [Option.map_some, Option.some.injEq, Prod.mk.injEq] at hx
    refine ⟨c, reach_mono (by intro op h; simpa using h) (exec_reach .init he), hx.1, 1, ?_⟩
    cases hth : c.th 1 with
    | none => rw [hth] at hx; simp at hx
    | some A =>
      rw [hth] at hx
      exact ⟨A, rfl, by simpa [obj] using hx.2⟩

/-- An execution that meets the hypotheses: two racing insertions for one key and a `get`
afterwards. -/
example : ∃ c : Config 2 Shared Loc MapOp MapRet, Execution 5 4 c ∧ c.quiescent ∧
    c.hist = [.inv 0 (.insert 3 7), .inv 1 (.insert 3 8), .res 0 (.insert 3 7) (.bool false),
      .res 1 (.insert 3 8) (.bool true), .inv 0 (.get 3), .res 0 (.get 3) (.val 8)] := by
  have hc : nextPow2 4 = 4 := nextPow2_pow 2
  have hx : (exec (obj 5) (fun op => op.key != 0) (Config.init 2 (new 5 4))
      [.call 0 (.insert 3 7), .call 1 (.insert 3 8), .run 0, .run 1, .run 0, .run 1, .run 1, .run 0,
        .run 0, .run 1, .run 1, .call 0 (.get 3), .run 0, .run 0]).map
          (fun c => (c.hist, (c.th 0).isNone, (c.th 1).isNone))
      = some ([.inv 0 (.insert 3 7), .inv 1 (.insert 3 8), .res 0 (.insert 3 7) (.bool false),
      .res 1 (.insert 3 8) (.bool true), .inv 0 (.get 3), .res 0 (.get 3) (.val 8)],
        true, true) := by
    unfold new; rw [hc]; decide
  cases he : exec (obj 5) (fun op => op.key != 0) (Config.init 2 (new 5 4))
      [.call 0 (.insert 3 7), .call 1 (.insert 3 8), .run 0, .run 1, .run 0, .run 1, .run 1, .run 0,
        .run 0, .run 1, .run 1, .call 0 (.get 3), .run 0, .run 0] with
  | none => rw [he] at hx; cases hx
  | some c =>
    rw [he] at hx
    simp only [Option.map_some, Option.some.injEq, Prod.mk.injEq, Option.isNone_iff_eq_none] at hx
    refine ⟨c, reach_mono (by intro op h; simpa using h) (exec_reach .init he), ?_, hx.1⟩
    intro t
    match t with
    | 0 => exact hx.2.1
    | 1 => exact hx.2.2

end ConcMap
end Verif
