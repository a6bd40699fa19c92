import Verif.Lemmas.ConcMultiMap

/-!
# Properties of the lock-free multimap: C14
-/
namespace Verif
namespace ConcMultiMap
open Conc

/-- The executions considered: any number `n` of threads, calling `insert(k, v)` and `contains(k)`
with non-zero keys, on a multimap constructed with some initial size, in any interleaving. -/
def Execution (a size : Nat) {n : Nat} (c : Config n Shared Loc MOp MRet) : Prop :=
  Reach (obj a) (fun op => op.key ≠ 0) (new a size) c

/-- The pairs of the history's `insert` calls that returned true, in order. -/
def insertedPairs {n : Nat} : List (Ev n MOp MRet) → List (Nat × Nat)
  | [] => []
  | .res _ (.insert k v) (.bool true) :: h => (k, v) :: insertedPairs h
  | _ :: h => insertedPairs h

/-- The same memory seen as the sequential multimap: `get` of both classes is the same code
(LP_MultiMap.hxx:445-477 and 159-191). -/
def Shared.seq (s : Shared) : LpMultiMap := { keys := s.keys, vals := s.vals, items := s.items, a := s.a }

theorem acked_eq {n : Nat} : ∀ h : List (Ev n MOp MRet),
    acked h = (insertedPairs h).map (fun q => (q.1, some q.2))
  | [] => rfl
  | e :: h => by
    have ih := acked_eq h
    unfold acked at ih ⊢
    unfold insertedPairs
    rw [List.filterMap_cons, ih]
    cases e with
    | inv t op => rfl
    | res t op r =>
      cases op with
      | contains k => rfl
      | insert k v =>
        cases r with
        | full => rfl
        | bool b => cases b <;> rfl

theorem exec_inv {a size n : Nat} {c : Config n Shared Loc MOp MRet}
    (hs : 1 ≤ size) (h : Execution a size c) : ∃ p, nextPow2 size = 2 ^ p ∧ MInv p a c := by
  obtain ⟨p, hp⟩ := nextPow2_isPow hs
  refine ⟨p, hp, reach_inv ?_⟩
  have : new a size = ⟨List.replicate (2 ^ p) 0, List.replicate (2 ^ p) none, 0, a⟩ := by
    unfold new; rw [hp]
  rw [← this]
  exact h

/-- **C14.** No execution runs into undefined behaviour. -/
theorem C14_no_undefined (a size n : Nat) (hs : 1 ≤ size)
    (c : Config n Shared Loc MOp MRet) (h : Execution a size c) : ¬ c.undef (obj a) := by
  obtain ⟨p, _, hi⟩ := exec_inv hs h
  rintro ⟨t, A, hA, hn⟩
  have hloc := hi.loc t A hA
  rw [← hi.ha] at hloc
  obtain ⟨s', out, hst, _⟩ := step_cases hi.len (by rw [hi.ha]; exact hi.path) hi.vlen hloc
  rw [show (obj a).step c.sh A.loc = step c.sh A.loc from rfl, hst] at hn
  cases hn

/-- **C14.** At every moment, including in the middle of other operations, each pair is stored at
least as often as its insertion has returned true, and no insertion returns false. -/
theorem C14_acknowledged_stored (a size n : Nat) (hs : 1 ≤ size)
    (c : Config n Shared Loc MOp MRet) (h : Execution a size c) :
    (∀ k v, (insertedPairs c.hist).count (k, v) ≤ (c.sh.keys.zip c.sh.vals).count (k, some v)) ∧
    (∀ t k v, Ev.res t (.insert k v) (.bool false) ∉ c.hist) := by
  obtain ⟨p, _, hi⟩ := exec_inv hs h
  refine ⟨fun k v => ?_, fun t k v he => by simpa using (hi.ret t k v false he).2.2⟩
  rw [hi.stored, acked_eq]
  have := List.count_map_of_injective (insertedPairs c.hist)
    (fun q : Nat × Nat => (q.1, some q.2))
    (by rintro ⟨a, b⟩ ⟨c, d⟩ hh; simpa using hh) (k, v)
  simp only at this
  omega

/-- **C14.** When no operation is running, the occupied slots hold exactly the pairs whose insertion
returned true, each as often as that happened, and the item counter is their number. -/
theorem C14_quiescent (a size n : Nat) (hs : 1 ≤ size)
    (c : Config n Shared Loc MOp MRet) (h : Execution a size c) (hq : c.quiescent) :
    ((c.sh.keys.zip c.sh.vals).filter (fun s => decide (s.1 ≠ 0))).Perm
      ((insertedPairs c.hist).map (fun q => (q.1, some q.2))) ∧
    c.sh.items = (insertedPairs c.hist).length := by
  obtain ⟨p, _, hi⟩ := exec_inv hs h
  have hperm : ((c.sh.keys.zip c.sh.vals).filter (fun s => decide (s.1 ≠ 0))).Perm
      ((insertedPairs c.hist).map (fun q => (q.1, some q.2))) := by
    rw [← acked_eq, List.perm_iff_count]
    rintro ⟨k, o⟩
    by_cases hk : k = 0
    · rw [List.count_eq_zero_of_not_mem, List.count_eq_zero_of_not_mem]
      · intro hm
        exact hi.ack _ hm hk
      · intro hm
        simpa [hk] using (List.mem_filter.1 hm).2
    · rw [List.count_filter (by simpa using hk)]
      cases o with
      | none =>
        rw [List.count_eq_zero_of_not_mem, List.count_eq_zero_of_not_mem]
        · rw [acked_eq]
          simp
        · intro hm
          obtain ⟨i, hi', he⟩ := List.getElem_of_mem hm
          have : (c.sh.keys.zip c.sh.vals)[i]? = some (k, none) := by
            rw [List.getElem?_eq_getElem hi', he]
          rw [List.getElem?_zip_eq_some] at this
          obtain ⟨t, op, v, st, ht⟩ := hi.init i k this.1 hk this.2
          rw [hq t] at ht
          cases ht
      | some v =>
        rw [hi.stored, cnt_eq_zero (fun t => by rw [hq t]; rfl)]
        rfl
  refine ⟨hperm, ?_⟩
  have h0 : Conc.cnt isPend c.th = 0 := cnt_eq_zero (fun t => by rw [hq t]; rfl)
  have hc := hi.cnt
  rw [h0, Nat.add_zero] at hc
  have hl := hperm.length_eq
  rw [List.length_map] at hl
  rw [hc, ← hl, ← List.countP_eq_length_filter]
  unfold occ
  conv_lhs => rw [show c.sh.keys = (c.sh.keys.zip c.sh.vals).map Prod.fst from
    (List.map_fst_zip (by rw [hi.vlen])).symm, List.countP_map]
  congr 1
  funext x
  by_cases hx : x.1 = 0 <;> simp [hx]

/-- **C14.** When no operation is running and at least two slots are free, iterating over `get(k)`
yields exactly the values whose insertion under `k` returned true, each as often as that happened. -/
theorem C14_get (a size n : Nat) (hs : 1 ≤ size)
    (c : Config n Shared Loc MOp MRet) (h : Execution a size c) (hq : c.quiescent)
    (hfree : c.sh.items + 2 ≤ nextPow2 size) (k : Nat) (hk : k ≠ 0) :
    ∃ vs, Returns (fun fuel => c.sh.seq.getAll fuel k) vs ∧
      vs.Perm (((insertedPairs c.hist).filter (fun q => q.1 = k)).map Prod.snd) := by
  obtain ⟨p, hp, hi⟩ := exec_inv hs h
  obtain ⟨h1, h2⟩ := C14_quiescent a size n hs c h hq
  have h0 : Conc.cnt isPend c.th = 0 := cnt_eq_zero (fun t => by rw [hq t]; rfl)
  have hc := hi.cnt
  rw [h0, Nat.add_zero] at hc
  have hwf : c.sh.seq.WF := ⟨⟨p, hi.len⟩, hi.vlen, by
    show LpMultiMap.MPath (hash64 c.sh.a) c.sh.keys
    rw [hi.ha]; exact hi.path, hc⟩
  have habs : c.sh.seq.Abs (insertedPairs c.hist) := by
    unfold LpMultiMap.Abs LpMultiMap.pairs
    refine List.Perm.trans (List.Perm.of_eq ?_) h1
    congr 1
    funext x
    by_cases hx : x.1 = 0 <;> simp [hx]
  exact LpMultiMap.getAll_spec hwf habs hk (by
    show c.sh.items + 2 ≤ c.sh.keys.length
    rw [hi.len, ← hp]; exact hfree)

/-- **C14.** A `contains(k)` that returns true does so after some `insert(k, _)` was called, one that
returns false does so before any `insert(k, _)` has returned true. -/
theorem C14_contains (a size n : Nat) (hs : 1 ≤ size) (c : Config n Shared Loc MOp MRet)
    (h : Execution a size c) (t : Fin n) (k : Nat) (b : Bool) (h1 h2 : List (Ev n MOp MRet))
    (he : c.hist = h1 ++ .res t (.contains k) (.bool b) :: h2) :
    if b then ∃ t' v, Ev.inv t' (.insert k v) ∈ h1
    else ∀ t' v, Ev.res t' (.insert k v) (.bool true) ∉ h1 := by
  obtain ⟨p, _, hi⟩ := exec_inv hs h
  have := hi.look t k b h1 h2 he
  cases b
  · exact fun t' v => this.2 rfl t' v true
  · exact this.1 rfl

/-- An execution that meets the hypotheses: two racing insertions for one key. -/
example : ∃ c : Config 2 Shared Loc MOp MRet, Execution 5 4 c ∧ c.quiescent ∧ c.sh.items = 2 ∧
    insertedPairs c.hist = [(3, 8), (3, 7)] := by
  have hc : nextPow2 4 = 4 := nextPow2_pow 2
  have hx : (exec (obj 5) (fun op => op.key != 0) (Config.init 2 (new 5 4))
      [.call 0 (.insert 3 7), .call 1 (.insert 3 8), .run 0, .run 1, .run 0, .run 1, .run 1, .run 0,
        .run 0, .run 1, .run 1, .run 0, .run 0, .run 0]).map
          (fun c => (c.sh.items, insertedPairs c.hist, (c.th 0).isNone, (c.th 1).isNone))
      = some (2, [(3, 8), (3, 7)], true, true) := by
    unfold new; rw [hc]; decide
  cases he : exec (obj 5) (fun op => op.key != 0) (Config.init 2 (new 5 4))
      [.call 0 (.insert 3 7), .call 1 (.insert 3 8), .run 0, .run 1, .run 0, .run 1, .run 1, .run 0,
        .run 0, .run 1, .run 1, .run 0, .run 0, .run 0] with
  | none => rw [he] at hx; cases hx
  | some c =>
    rw [he] at hx
    simp only [Option.map_some, Option.some.injEq, Prod.mk.injEq, Option.isNone_iff_eq_none] at hx
    refine ⟨c, reach_mono (by intro op h; simpa using h) (exec_reach .init he), ?_, hx.1, hx.2.1⟩
    intro t
    match t with
    | 0 => exact hx.2.2.1
    | 1 => exact hx.2.2.2

end ConcMultiMap
end Verif
