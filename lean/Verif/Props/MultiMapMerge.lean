import Verif.Model.MultiMapMerge
import Verif.Props.ConcMultiMap

/-!
# Rehashing and merging concurrent multimaps (C124)
-/
namespace Verif
namespace ConcMultiMap
open Conc

/-- Multimaps at rest: every occupied slot has a value, and the counter is the number of entries. -/
structure Rest (m : Shared) : Prop where
  value : ∀ i k : Nat, m.keys[i]? = some k → k ≠ 0 → ∃ v, m.vals[i]? = some (some v)
  count : m.items = (pairs m).length

private def entry (s : Nat × Option Nat) : Option (Nat × Nat) := if s.1 = 0 then none else s.2.map fun v => (s.1, v)

private theorem pairs_eq (m : Shared) : pairs m = ((m.keys.zip m.vals).filter (fun s => decide (s.1 ≠ 0))).filterMap entry := by
  rw [List.filterMap_filter]
  unfold pairs
  congr 1
  funext s
  unfold entry
  by_cases h : s.1 = 0 <;> simp [h]

private theorem entry_map (l : List (Nat × Nat)) (hl : ∀ x ∈ l, x.1 ≠ 0) : (l.map fun q => (q.1, some q.2)).filterMap entry = l := by
  induction l with
  | nil => rfl
  | cons x l ih =>
    have h0 := hl x (by simp)
    simp only [List.map_cons, List.filterMap_cons, entry, h0, if_false, Option.map_some]
    rw [ih (fun y hy => hl y (by simp [hy]))]

private theorem pairs_ne (m : Shared) : ∀ x ∈ pairs m, x.1 ≠ 0 := by
  intro x hx
  unfold pairs at hx
  rw [List.mem_filterMap] at hx
  obtain ⟨s, _, he⟩ := hx
  split_ifs at he with h0
  rw [Option.map_eq_some_iff] at he
  obtain ⟨v, _, rfl⟩ := he
  exact h0

variable {n : Nat}

private theorem inserted_ne {a size : Nat} (hs : 1 ≤ size) {c : Config n Shared Loc MOp MRet} (h : Execution a size c) :
    ∀ x ∈ insertedPairs c.hist, x.1 ≠ 0 := by
  obtain ⟨p, _, hi⟩ := exec_inv hs h
  intro x hx
  have : (x.1, some x.2) ∈ acked c.hist := by
    rw [acked_eq]
    exact List.mem_map.mpr ⟨x, hx, rfl⟩
  exact hi.ack _ this

/-- When nothing runs, the entries are the pairs inserted, with multiplicities. -/
private theorem pairs_perm {a size : Nat} (hs : 1 ≤ size) {c : Config n Shared Loc MOp MRet} (h : Execution a size c) (hq : c.quiescent) :
    (pairs c.sh).Perm (insertedPairs c.hist) := by
  have h1 := (C14_quiescent a size n hs c h hq).1.filterMap entry
  rw [entry_map _ (inserted_ne hs h)] at h1
  rw [pairs_eq]
  exact h1

/-- A multimap used by any number of threads is at rest when no thread is inside an operation. -/
theorem rest_of_execution {a size : Nat} (hs : 1 ≤ size) {c : Config n Shared Loc MOp MRet} (h : Execution a size c) (hq : c.quiescent) :
    Rest c.sh := by
  obtain ⟨h1, h2⟩ := C14_quiescent a size n hs c h hq
  obtain ⟨p, _, hi⟩ := exec_inv hs h
  refine ⟨fun i k hk h0 => ?_, ?_⟩
  · have hlt : i < c.sh.vals.length := by
      rw [hi.vlen]; exact (List.getElem?_eq_some_iff.1 hk).1
    cases hv : c.sh.vals[i]? with
    | none => rw [List.getElem?_eq_none_iff] at hv; omega
    | some o =>
      cases o with
      | some v => exact ⟨v, rfl⟩
      | none =>
        obtain ⟨t, op, v, st, ht⟩ := hi.init i k hk h0 hv
        rw [hq t] at ht; cases ht
  · rw [h2, (pairs_perm hs h hq).length_eq]

/-! ### Histories -/

private def fin : List (Ev n MOp MRet) → List MOp := List.filterMap fun e => match e with
  | .inv .. => none
  | .res _ op _ => some op

private def busy : Option (Active Loc MOp) → Bool := Option.isSome

private def isOp (op : MOp) : Option (Active Loc MOp) → Bool
  | none => false
  | some A => decide (A.op = op)

private structure Hist (c : Config n Shared Loc MOp MRet) : Prop where
  bal : ∀ op, (called c.hist).count op = (fin c.hist).count op + Conc.cnt (isOp op) c.th
  items : c.sh.items + Conc.cnt busy c.th ≤ (called c.hist).length
  full : 2 * (called c.hist).length ≤ c.sh.keys.length → ∀ t op, Ev.res t op .full ∉ c.hist

private theorem hist_ok {a size : Nat} (hs : 1 ≤ size) {c : Config n Shared Loc MOp MRet} (h : Execution a size c) : Hist c := by
  refine h.induct (P := fun c => Hist c) ?_ ?_
  · refine ⟨fun op => ?_, ?_, ?_⟩
    · simp [Config.init, called, fin, cnt_eq_zero (p := isOp op) (f := fun _ : Fin n => (none : Option (Active Loc MOp))) (fun _ => rfl)]
    · simp [Config.init, called, new, cnt_eq_zero (p := busy) (f := fun _ : Fin n => (none : Option (Active Loc MOp))) (fun _ => rfl)]
    · intro _ t op h; simp [Config.init] at h
  · intro c c' hr hi hst
    obtain ⟨p, _, hm⟩ := exec_inv hs hr
    cases hst with
    | call t op hidle hok =>
      have hc := cnt_update_add (p := busy) (f := c.th) (t := t) (x := some ⟨op, (obj a).start op, 0⟩) (by rw [hidle]; rfl) rfl
      have e1 : called (c.hist ++ [Ev.inv t op]) = called c.hist ++ [op] := by unfold called; rw [List.filterMap_append]; rfl
      have e2 : fin (c.hist ++ [Ev.inv t op]) = fin c.hist := by unfold fin; rw [List.filterMap_append]; simp
      refine ⟨fun op' => ?_, ?_, ?_⟩
      · have hb := hi.bal op'
        simp only
        rw [e1, e2, List.count_append, hb]
        by_cases ho : op = op'
        · subst ho
          have := cnt_update_add (p := isOp op) (f := c.th) (t := t) (x := some ⟨op, (obj a).start op, 0⟩) (by rw [hidle]; rfl) (by simp [isOp])
          rw [this]
          simp
          omega
        · have := cnt_update_same (p := isOp op') (f := c.th) (t := t) (x := some ⟨op, (obj a).start op, 0⟩) (by rw [hidle]; simp [isOp, ho])
          rw [this, List.count_eq_zero_of_not_mem (l := [op]) (by simpa using fun h => ho h.symm)]
          omega
      · have := hi.items
        simp only
        rw [e1, hc, List.length_append, List.length_singleton]
        omega
      · intro hl u op' hu
        simp only at hl hu
        rw [e1, List.length_append] at hl
        exact hi.full (by omega) u op' (by simpa using hu)
    | internal t A s' l' hth hst =>
      have hA := hm.loc t A hth
      rw [← hm.ha] at hA
      obtain ⟨s1, out, hs1, hcase⟩ := step_cases hm.len (by rw [hm.ha]; exact hm.path) hm.vlen hA
      rw [show (obj a).step c.sh A.loc = step c.sh A.loc from rfl, hs1] at hst
      simp only [Option.some.injEq, Prod.mk.injEq] at hst
      obtain ⟨rfl, rfl⟩ := hst
      have hsame : s1.items = c.sh.items ∧ s1.keys.length = c.sh.keys.length := by
        cases hcase <;> simp
      refine ⟨fun op' => ?_, ?_, ?_⟩
      · simp only
        rw [cnt_update_same (by rw [hth]; rfl)]
        exact hi.bal op'
      · simp only
        rw [cnt_update_same (by rw [hth]; rfl), hsame.1]
        exact hi.items
      · simp only; rw [hsame.2]; exact hi.full
    | ret t A s' r hth hst =>
      have hc := cnt_update_sub (p := busy) (f := c.th) (t := t) (x := none) (by rw [hth]; rfl) rfl
      have hA := hm.loc t A hth
      rw [← hm.ha] at hA
      obtain ⟨s1, out, hs1, hcase⟩ := step_cases hm.len (by rw [hm.ha]; exact hm.path) hm.vlen hA
      rw [show (obj a).step c.sh A.loc = step c.sh A.loc from rfl, hs1] at hst
      simp only [Option.some.injEq, Prod.mk.injEq] at hst
      obtain ⟨rfl, rfl⟩ := hst
      have e1 : called (c.hist ++ [Ev.res t A.op r]) = called c.hist := by unfold called; rw [List.filterMap_append]; simp
      have e2 : fin (c.hist ++ [Ev.res t A.op r]) = fin c.hist ++ [A.op] := by unfold fin; rw [List.filterMap_append]; rfl
      have hsame : s1.items ≤ c.sh.items + 1 ∧ s1.keys.length = c.sh.keys.length := by
        cases hcase <;> simp
      refine ⟨fun op' => ?_, ?_, ?_⟩
      · have hb := hi.bal op'
        simp only
        rw [e1, e2, List.count_append, hb]
        by_cases ho : A.op = op'
        · have := cnt_update_sub (p := isOp op') (f := c.th) (t := t) (x := none) (by rw [hth]; simp [isOp, ho]) rfl
          rw [ho]
          simp
          omega
        · have := cnt_update_same (p := isOp op') (f := c.th) (t := t) (x := none) (by rw [hth]; simp [isOp, ho])
          rw [this, List.count_eq_zero_of_not_mem (l := [A.op]) (by simpa using fun h => ho h.symm)]
          omega
      · have := hi.items
        simp only
        rw [e1]
        omega
      · intro hl u op' hu
        simp only at hl hu
        rw [e1, hsame.2] at hl
        rw [List.mem_append, List.mem_singleton] at hu
        rcases hu with hu | hu
        · exact hi.full hl u op' hu
        · injection hu with h1 h2 h3
          subst h3
          have hit := hi.items
          have hpos : 0 < Conc.cnt busy c.th := cnt_pos (t := t) (by rw [hth]; rfl)
          have : ¬ c.sh.items ≥ c.sh.keys.length / 2 := by omega
          unfold step at hs1
          split at hs1 <;> (try simp only at hs1) <;> (repeat' split at hs1) <;> simp_all

private theorem fin_inserted (h : List (Ev n MOp MRet)) (hh : ∀ t op r, Ev.res t op r ∈ h → (∃ k v, op = .insert k v) ∧ r = .bool true) :
    fin h = calls (insertedPairs h) := by
  induction h with
  | nil => rfl
  | cons e h ih =>
    have ih := ih (fun t op r hm => hh t op r (by simp [hm]))
    cases e with
    | inv t op => exact ih
    | res t op r =>
      obtain ⟨⟨k, v, rfl⟩, rfl⟩ := hh t op r (by simp)
      show MOp.insert k v :: fin h = calls ((k, v) :: insertedPairs h)
      rw [ih]
      rfl

private theorem calls_inj {l l' : List (Nat × Nat)} (h : (calls l).Perm (calls l')) : l.Perm l' := by
  have h1 := h.map (fun op : MOp => match op with
    | .insert k v => (k, v)
    | .contains k => (k, 0))
  unfold calls at h1
  rw [List.map_map, List.map_map] at h1
  simpa [Function.comp_def] using h1

private theorem key_ne {l : List (Nat × Nat)} (hl : ∀ x ∈ l, x.1 ≠ 0) : ∀ op, op ∈ calls l → op.key ≠ 0 := by
  intro op hop
  unfold calls at hop
  rw [List.mem_map] at hop
  obtain ⟨x, hx, rfl⟩ := hop
  exact hl x hx

/-- What a finished loop leaves, if the table has two slots per call. -/
private theorem loop_ok {a size : Nat} (hs : 1 ≤ size) {c : Config n Shared Loc MOp MRet} (h : Execution a size c) (hq : c.quiescent)
    {l : List (Nat × Nat)} (hl : (called c.hist).Perm (calls l)) (hlen : 2 * l.length ≤ size) :
    Rest c.sh ∧ (pairs c.sh).Perm l ∧ ∀ t op, Ev.res t op .full ∉ c.hist := by
  obtain ⟨p, hp, hm⟩ := exec_inv hs h
  have hh := hist_ok hs h
  have hlenc : (called c.hist).length = l.length := by rw [hl.length_eq, calls, List.length_map]
  have hfull := hh.full (by
    have := le_nextPow2 size
    rw [hm.len, ← hp, hlenc]
    omega)
  have hfin : (called c.hist).Perm (fin c.hist) := by
    rw [List.perm_iff_count]
    intro op
    rw [hh.bal op, cnt_eq_zero (fun t => by rw [hq t]; rfl)]
    rfl
  refine ⟨rest_of_execution hs h hq, ?_, hfull⟩
  have hall : ∀ t op r, Ev.res t op r ∈ c.hist → (∃ k v, op = .insert k v) ∧ r = .bool true := by
    intro t op r hm'
    have h1 : op ∈ fin c.hist := by
      unfold fin
      rw [List.mem_filterMap]
      exact ⟨_, hm', rfl⟩
    have h2 := hl.mem_iff.mp (hfin.mem_iff.mpr h1)
    unfold calls at h2
    rw [List.mem_map] at h2
    obtain ⟨x, _, rfl⟩ := h2
    refine ⟨⟨_, _, rfl⟩, ?_⟩
    cases r with
    | full => exact absurd hm' (hfull t _)
    | bool b => rw [(hm.ret t _ _ b hm').2.2]
  refine (pairs_perm hs h hq).trans (calls_inj ?_)
  rw [← fin_inserted _ hall]
  exact hfin.symm.trans hl

/-- **C124.** `unsafe_rehash` with room for twice the number of entries keeps the entries with their multiplicities, whatever the threads do. -/
theorem C124_rehash {m : Shared} (hm : Rest m) {newSize : Nat} (h1 : 1 ≤ newSize) (h2 : 2 * m.items ≤ newSize)
    {c : Config n Shared Loc MOp MRet} (h : Rehash m newSize c) :
    Rest c.sh ∧ (pairs c.sh).Perm (pairs m) ∧ c.sh.items = m.items := by
  obtain ⟨hr, hq, hp⟩ := h
  have he : Execution m.a newSize c := reach_mono (key_ne (pairs_ne m)) hr
  obtain ⟨l1, l2, _⟩ := loop_ok h1 he hq hp (by rw [← hm.count]; exact h2)
  exact ⟨l1, l2, by rw [l1.count, hm.count, l2.length_eq]⟩

/-- The loop for the size ends with a power of two that is at least twice the number of entries. -/
private theorem room {items size : Nat} (h0 : 1 ≤ items) (h : Returns (fun fuel => roomLoop items fuel (nextPow2 items)) size) :
    2 * items ≤ size ∧ nextPow2 size = size := by
  obtain ⟨p, hp⟩ := nextPow2_isPow h0
  have hle := le_nextPow2 items
  have key : ∀ fuel q s, roomLoop items fuel (2 ^ q) = .done s → 2 * items ≤ s ∧ nextPow2 s = s := by
    intro fuel
    induction fuel with
    | zero => intro q s hs; cases hs
    | succ fuel ih =>
      intro q s hs
      unfold roomLoop at hs
      split_ifs at hs with hc
      · rw [← pow_succ] at hs
        exact ih _ _ hs
      · injection hs with hs
        subst hs
        exact ⟨by omega, nextPow2_pow q⟩
  obtain ⟨N, hN⟩ := h
  have := hN N le_rfl
  simp only at this
  rw [hp] at this
  exact key N p size this

/-- The loop for the size ends. -/
theorem room_ends (items : Nat) : ∃ size, Returns (fun fuel => roomLoop items fuel (nextPow2 items)) size := by
  have hle := le_nextPow2 items
  by_cases hc : items > nextPow2 items / 2
  · refine ⟨nextPow2 items * 2, 2, fun m hm => ?_⟩
    obtain ⟨k, rfl⟩ := Nat.exists_eq_add_of_le' hm
    simp only [roomLoop]
    rw [if_pos hc, if_neg (by omega)]
  · refine ⟨nextPow2 items, 1, fun m hm => ?_⟩
    obtain ⟨k, rfl⟩ := Nat.exists_eq_add_of_le' hm
    simp only [roomLoop]
    rw [if_neg hc]

private theorem fresh_eq {a size : Nat} (h : nextPow2 size = size) : fresh a size = new a size := by
  unfold fresh new
  rw [h]

/-- **C124.** `unsafe_merge(other, filter)`: unless both multimaps are empty, the entries afterwards are those of both multimaps whose key is
not in the filter, with multiplicities, whatever the threads do, and no call found the table full.
Missing: merging two empty multimaps, see `C124_merge_violated`. -/
theorem C124_merge_partial {m other : Shared} (rm : Rest m) (ro : Rest other) (hne : 1 ≤ m.items + other.items) {F : Nat → Bool} {size : Nat}
    {c : Config n Shared Loc MOp MRet} (h : Merge m other F size c) :
    Rest c.sh ∧ (pairs c.sh).Perm ((pairs m ++ pairs other).filter fun x => !F x.1) ∧ (∀ t op, Ev.res t op .full ∉ c.hist) ∧
    ¬ c.undef (obj m.a) := by
  obtain ⟨hsz, hr, hq, hp⟩ := h
  obtain ⟨s1, s2⟩ := room hne hsz
  rw [fresh_eq s2] at hr
  have hk : ∀ x ∈ pairs m ++ pairs other, x.1 ≠ 0 := by
    intro x hx
    rw [List.mem_append] at hx
    exact hx.elim (pairs_ne m x) (pairs_ne other x)
  have he : Execution m.a size c := reach_mono (key_ne hk) hr
  have hlen : 2 * ((pairs m ++ pairs other).filter fun x => !F x.1).length ≤ size := by
    have e1 := List.length_filter_le (fun x : Nat × Nat => !F x.1) (pairs m ++ pairs other)
    rw [List.length_append, ← rm.count, ← ro.count] at e1
    omega
  obtain ⟨l1, l2, l3⟩ := loop_ok (by omega) he hq hp hlen
  exact ⟨l1, l2, l3, C14_no_undefined m.a size n (by omega) c he⟩

/-- **C124.** Merging two empty multimaps leaves a table without slots; `contains` then reads outside of it. -/
theorem C124_merge_violated (F : Nat → Bool) (k : Nat) : ∃ c c' : Config 1 Shared Loc MOp MRet,
    Rest (new 5 4) ∧ pairs (new 5 4) = [] ∧ Merge (new 5 4) (new 5 4) F 0 c ∧ c.sh.keys = [] ∧
    Step (obj 5) (fun _ => True) c c' ∧ c'.hist = c.hist ++ [.inv 0 (.contains k)] ∧ c'.undef (obj 5) := by
  have hn : new 5 4 = ⟨[0, 0, 0, 0], [none, none, none, none], 0, 5⟩ := by
    unfold new
    rw [show nextPow2 4 = 4 from nextPow2_pow 2]
    rfl
  have hp : pairs (new 5 4) = [] := by rw [hn]; rfl
  have hrest : Rest (new 5 4) := by
    refine ⟨fun i k hk h0 => ?_, by rw [hp, hn]; rfl⟩
    rw [hn] at hk
    have := List.mem_of_getElem? hk
    simp at this
    exact absurd this h0
  let c : Config 1 Shared Loc MOp MRet := Config.init 1 (fresh 5 0)
  refine ⟨c, { c with th := Function.update c.th 0 (some ⟨.contains k, (obj 5).start (.contains k), 0⟩), hist := c.hist ++ [.inv 0 (.contains k)] },
    hrest, hp, ⟨?_, .init, fun t => rfl, ?_⟩, rfl, .call c 0 _ rfl trivial, rfl, ⟨0, ⟨.contains k, .look k (hash64 5 k), 0⟩, ?_, ?_⟩⟩
  · refine ⟨1, fun m hm => ?_⟩
    obtain ⟨k, rfl⟩ := Nat.exists_eq_add_of_le' hm
    rw [hn]
    rfl
  · rw [hp]
    exact List.Perm.refl _
  · show Function.update c.th 0 _ 0 = _
    rw [Function.update_self]
    rfl
  · show step (fresh 5 0) (.look k (hash64 5 k)) = none
    simp [step, fresh]

/-- Two multimaps with a common pair, merged by two threads whose calls overlap. -/
example : ∃ c : Config 2 Shared Loc MOp MRet, Rest ⟨[0, 1, 0, 0], [none, some 7, none, none], 1, 5⟩ ∧
    Rest ⟨[0, 1, 2, 0], [none, some 7, some 8, none], 2, 5⟩ ∧
    Merge ⟨[0, 1, 0, 0], [none, some 7, none, none], 1, 5⟩ ⟨[0, 1, 2, 0], [none, some 7, some 8, none], 2, 5⟩ (fun k => k == 2) 8 c ∧
    pairs c.sh = [(1, 7), (1, 7)] := by
  have hx : (exec (obj 5) (fun op => decide (op ∈ [MOp.insert 1 7, .insert 1 7, .insert 2 8])) (Config.init 2 (fresh 5 8))
      [.call 0 (.insert 1 7), .call 1 (.insert 1 7), .run 0, .run 1, .run 0, .run 1, .run 1, .run 0, .run 0, .run 0, .run 1, .run 1, .run 0, .run 0]).map
      (fun c => (pairs c.sh, called c.hist, decide (∀ t, (c.th t).isNone))) = some ([(1, 7), (1, 7)], [.insert 1 7, .insert 1 7], true) := rfl
  cases he : exec (obj 5) (fun op => decide (op ∈ [MOp.insert 1 7, .insert 1 7, .insert 2 8])) (Config.init 2 (fresh 5 8))
      [.call 0 (.insert 1 7), .call 1 (.insert 1 7), .run 0, .run 1, .run 0, .run 1, .run 1, .run 0, .run 0, .run 0, .run 1, .run 1, .run 0, .run 0] with
  | none => rw [he] at hx; cases hx
  | some c =>
    rw [he] at hx
    simp only [Option.map_some, Option.some.injEq, Prod.mk.injEq, decide_eq_true_eq] at hx
    have h8 : nextPow2 3 = 4 := by
      unfold nextPow2
      rw [if_neg (by omega), show Nat.clog 2 3 = 2 by decide]
    refine ⟨c, ⟨?_, rfl⟩, ⟨?_, rfl⟩, ⟨⟨2, fun m hm => ?_⟩, ?_, ?_, ?_⟩, hx.1⟩
    · intro i k hk h0
      rcases i with _ | _ | _ | _ | i <;> simp at hk <;> first | exact absurd hk.symm h0 | exact ⟨_, rfl⟩
    · intro i k hk h0
      rcases i with _ | _ | _ | _ | i <;> simp at hk <;> first | exact absurd hk.symm h0 | exact ⟨_, rfl⟩
    · obtain ⟨k, rfl⟩ := Nat.exists_eq_add_of_le' hm
      show roomLoop 3 (k + 2) (nextPow2 3) = _
      rw [h8]
      rfl
    · exact reach_mono (fun op h => of_decide_eq_true h) (exec_reach .init he)
    · intro t
      exact Option.isNone_iff_eq_none.mp (hx.2.2 t)
    · rw [hx.2.1]
      decide

end ConcMultiMap
end Verif
