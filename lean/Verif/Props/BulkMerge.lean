import Verif.Lemmas.BulkMerge

/-!
# Properties of the parallel bulk merge: C17
-/
namespace Verif
namespace BulkMerge
open Conc

/-- The number of occupied slots of a table. -/
def used (t : ConcSet.Shared) : Nat := (t.arr.filter (fun x => decide (x ≠ 0))).length

theorem used_eq (t : ConcSet.Shared) : used t = occ t.arr := by
  unfold used occ
  rw [← List.countP_eq_length_filter]
  congr 1
  funext x
  by_cases hx : x = 0 <;> simp [hx]

/-- The situations considered: two tables whose item counters are the numbers of their occupied slots
(which holds for every table at rest, `C10_quiescent`) and which are not both empty, a filter, the
table size computed by the code, and any execution of any number of tasks with any index ranges. -/
structure Setting (A B : ConcSet.Shared) (F : Nat → Bool) (sz : Nat) {n : Nat}
    (c : Config n Shared Loc Chunk Unit) : Prop where
  hA : A.items = used A
  hB : B.items = used B
  ne : 1 ≤ A.items + B.items
  size : Returns (fun fuel => newSize fuel A.items B.items) sz
  exec : Reach obj (fun op => op.lo ≤ op.hi) (init A B F sz) c

theorem Setting.inv {A B : ConcSet.Shared} {F : Nat → Bool} {sz n : Nat}
    {c : Config n Shared Loc Chunk Unit} (h : Setting A B F sz c) :
    ∃ q, sz = 2 ^ q ∧ 2 * (used A + used B) ≤ sz ∧ MInv ⟨A.arr, B.arr, F, A.a, q⟩ c ∧
      (Par.mk A.arr B.arr F A.a q).keys.card < 2 ^ q := by
  obtain ⟨q, hq, hle⟩ := newSize_spec A.items B.items h.ne
  have hsz := h.size.unique hq
  have hne := h.ne
  have hcard := card_keys_le A.arr B.arr F A.a q
  have e1 := used_eq A
  have e2 := used_eq B
  have h1 := h.hA
  have h2 := h.hB
  have he := h.exec
  subst hsz
  have hlt : (Par.mk A.arr B.arr F A.a q).keys.card < 2 ^ q := by omega
  exact ⟨q, rfl, by omega, reach_inv hlt he, hlt⟩

/-- **C17.** The size computation terminates and yields a power of two that is at least twice the
number of keys of both operands. -/
theorem C17_size (A B : ConcSet.Shared) (hne : 1 ≤ A.items + B.items) :
    ∃ sz, Returns (fun fuel => newSize fuel A.items B.items) sz ∧ (∃ q, sz = 2 ^ q) ∧
      2 * (A.items + B.items) ≤ sz := by
  obtain ⟨q, hq, hle⟩ := newSize_spec A.items B.items hne
  exact ⟨_, hq, ⟨q, rfl⟩, hle⟩

/-- **C17.** When all tasks have finished and their ranges cover the index range of the parallel loop,
the new table contains exactly the keys of both operands which the filter does not contain, no key
twice, and the item counter is the number of keys. This holds for all schedules and for every way of
cutting the loop into tasks. -/
theorem C17_filtered_union (A B : ConcSet.Shared) (F : Nat → Bool) (sz n : Nat)
    (c : Config n Shared Loc Chunk Unit) (h : Setting A B F sz c) (hq : c.quiescent)
    (hcov : ∀ i, i < max A.arr.length B.arr.length →
      ∃ t op, Ev.inv t op ∈ c.hist ∧ op.lo ≤ i ∧ i < op.hi) :
    (∀ k, k ≠ 0 → (k ∈ c.sh.new.arr ↔ (k ∈ A.arr ∨ k ∈ B.arr) ∧ F k = false)) ∧
    (c.sh.new.arr.filter (fun x => decide (x ≠ 0))).Nodup ∧
    c.sh.new.items = (c.sh.new.arr.filter (fun x => decide (x ≠ 0))).length := by
  obtain ⟨q, rfl, hle, hi, hlt⟩ := h.inv
  refine ⟨?_, ?_, ?_⟩
  · intro k hk
    constructor
    · intro hm
      have := hi.sub k hm hk
      unfold Par.keys at this
      simp only [Finset.mem_filter, Finset.mem_erase, List.mem_toFinset, List.mem_append] at this
      exact ⟨this.1.2, this.2⟩
    · rintro ⟨hm, hF⟩
      have key : ∀ (snd : Bool) (i : Nat), (src c.sh snd)[i]? = some k →
          i < max A.arr.length B.arr.length → k ∈ c.sh.new.arr := by
        intro snd i hs hlt
        obtain ⟨t, op, hop, h1, h2⟩ := hcov i hlt
        have hit : Item c.sh (pos i snd) k := ⟨i, snd, rfl, hs, hk, by rw [hi.hF]; exact hF⟩
        rcases hi.pres t op hop (pos i snd) k (by unfold pos; simp; omega)
          (by unfold pos; cases snd <;> simp <;> omega) hit with h3 | ⟨u, B', hu, _⟩
        · exact h3
        · rw [hq u] at hu; cases hu
      rcases hm with hm | hm
      · obtain ⟨i, hi', hik⟩ := List.getElem_of_mem hm
        refine key false i ?_ (by omega)
        unfold src
        simp only [Bool.false_eq_true, if_false]
        rw [hi.hold]
        simp only
        rw [List.getElem?_eq_getElem hi', hik]
      · obtain ⟨i, hi', hik⟩ := List.getElem_of_mem hm
        refine key true i ?_ (by omega)
        unfold src
        simp only [if_true]
        rw [hi.hother]
        simp only
        rw [List.getElem?_eq_getElem hi', hik]
  · have := hi.path.nodup
    convert this using 2
    funext x
    by_cases hx : x = 0 <;> simp [hx]
  · have h0 : Conc.cnt pend c.th = 0 := cnt_eq_zero (fun t => by rw [hq t]; rfl)
    have := hi.cntI
    rw [h0, Nat.add_zero] at this
    rw [this]
    exact (used_eq c.sh.new).symm

/-- **C17.** Every task finishes within `(2 (hi - lo)) (2 size + 3) + 1` steps, whatever the other
tasks do, and no access is outside of the table. -/
theorem C17_wait_free (A B : ConcSet.Shared) (F : Nat → Bool) (sz n : Nat)
    (c : Config n Shared Loc Chunk Unit) (h : Setting A B F sz c) :
    ¬ c.undef obj ∧
    ∀ t T, c.th t = some T → T.steps ≤ 2 * (T.op.hi - T.op.lo) * (2 * sz + 3) := by
  obtain ⟨q, rfl, hle, hi, hlt⟩ := h.inv
  have hz := hi.zero hlt
  constructor
  · rintro ⟨t, T, hT, hn⟩
    obtain ⟨s', out, hst, _⟩ := step_cases hi.len hz (hi.loc t T hT)
    rw [show obj.step c.sh T.loc = step c.sh T.loc from rfl, hst] at hn
    cases hn
  · intro t T hT
    have hl := hi.loc t T hT
    have hlen := hi.len
    simp only at hlen
    have key : ∀ (i : Nat) (snd : Bool), T.op.lo ≤ i → i < T.op.hi →
        base (2 ^ q) T.op.lo i snd + (2 * 2 ^ q + 3) ≤ 2 * (T.op.hi - T.op.lo) * (2 * 2 ^ q + 3) := by
      intro i snd h1 h2
      unfold base
      have : 2 * (i - T.op.lo) + snd.toNat + 1 ≤ 2 * (T.op.hi - T.op.lo) := by
        cases snd <;> simp <;> omega
      calc _ = (2 * (i - T.op.lo) + snd.toNat + 1) * (2 * 2 ^ q + 3) := by ring
        _ ≤ _ := Nat.mul_le_mul_right _ this
    cases hloc : T.loc with
    | read i e snd =>
      rw [hloc] at hl
      obtain ⟨h1, h2, h3, h4, h5⟩ := hl
      rw [hlen] at h5
      by_cases hlt' : i < T.op.hi
      · have := key i snd h2 hlt'
        omega
      · have hie : i = e := by omega
        have hs : snd = false := by
          cases snd
          · rfl
          · exact absurd (h4 rfl) (by omega)
        subst hs
        subst hie
        unfold base at h5
        simpa [h1] using h5
    | probe k idx i e snd =>
      rw [hloc] at hl
      obtain ⟨h1, h2, h3, _, _, _, d, _, hp, h5⟩ := hl
      have hd := passed_lt hz hp
      rw [hlen] at h5 hd
      have := key i snd h2 (by omega)
      omega
    | cas k j i e snd =>
      rw [hloc] at hl
      obtain ⟨h1, h2, h3, _, _, _, d, _, hp, h5⟩ := hl
      have hd := passed_lt hz hp
      rw [hlen] at h5 hd
      have := key i snd h2 (by omega)
      omega
    | incr i e snd =>
      rw [hloc] at hl
      obtain ⟨h1, h2, h3, h5⟩ := hl
      rw [hlen] at h5
      have := key i snd h2 (by omega)
      omega

/-- **C17.** The case of two empty operands: the merge leaves an empty table, whatever the tasks do. -/
theorem C17_empty (A B : ConcSet.Shared) (hA : used A = 0) (hB : used B = 0) (F : Nat → Bool)
    (n : Nat) (c : Config n Shared Loc Chunk Unit)
    (h : Reach obj (fun op => op.lo ≤ op.hi) (init A B F 0) c) :
    c.sh.new.arr = [] ∧ c.sh.new.items = 0 := by
  have hz : ∀ (X : ConcSet.Shared), used X = 0 → ∀ (i v : Nat), X.arr[i]? = some v → v = 0 := by
    intro X hX i v hv
    by_contra hne
    have : v ∈ X.arr.filter (fun x => decide (x ≠ 0)) := by
      rw [List.mem_filter]
      exact ⟨List.mem_of_getElem? hv, by simpa using hne⟩
    unfold used at hX
    rw [List.length_eq_zero_iff] at hX
    rw [hX] at this
    cases this
  have key : c.sh = init A B F 0 ∧ ∀ t T, c.th t = some T → ∃ i e snd, T.loc = .read i e snd := by
    refine h.induct (P := fun c => c.sh = init A B F 0 ∧
      ∀ t T, c.th t = some T → ∃ i e snd, T.loc = .read i e snd) ⟨rfl, by simp [Config.init]⟩ ?_
    rintro c c' _ ⟨hsh, hl⟩ hs
    have hstep : ∀ i e snd, step c.sh (.read i e snd) = some (c.sh, .inr ()) ∨
        step c.sh (.read i e snd) = some (c.sh, .inl (next i e snd)) := by
      intro i e snd
      simp only [step]
      split
      · exact Or.inl rfl
      · split
        · exact Or.inr rfl
        · rename_i v hv
          have : v = 0 := by
            rw [hsh] at hv
            unfold src at hv
            cases snd
            · exact hz A hA i v hv
            · exact hz B hB i v hv
          rw [if_neg (fun hx => hx.1 this)]
          exact Or.inr rfl
    cases hs with
    | call t op hidle hok =>
      refine ⟨hsh, fun u T hu => ?_⟩
      replace hu := ConcMap.upd_cases hu
      rcases hu with ⟨rfl, hu⟩ | ⟨hut, hu⟩
      · injection hu with hu
        subst hu
        exact ⟨_, _, _, rfl⟩
      · exact hl u T hu
    | internal t T s' l' hth hst =>
      obtain ⟨i, e, snd, hloc⟩ := hl t T hth
      rw [show obj.step c.sh T.loc = step c.sh T.loc from rfl, hloc] at hst
      rcases hstep i e snd with h1 | h1
      · rw [h1] at hst; simp at hst
      · rw [h1] at hst
        simp only [Option.some.injEq, Prod.mk.injEq, Sum.inl.injEq] at hst
        obtain ⟨rfl, rfl⟩ := hst
        refine ⟨hsh, fun u T' hu => ?_⟩
        replace hu := ConcMap.upd_cases hu
        rcases hu with ⟨rfl, hu⟩ | ⟨hut, hu⟩
        · injection hu with hu
          subst hu
          simp only
          unfold next
          split <;> exact ⟨_, _, _, rfl⟩
        · exact hl u T' hu
    | ret t T s' r hth hst =>
      obtain ⟨i, e, snd, hloc⟩ := hl t T hth
      rw [show obj.step c.sh T.loc = step c.sh T.loc from rfl, hloc] at hst
      rcases hstep i e snd with h1 | h1
      · rw [h1] at hst
        simp only [Option.some.injEq, Prod.mk.injEq] at hst
        obtain ⟨rfl, _⟩ := hst
        refine ⟨hsh, fun u T' hu => ?_⟩
        replace hu := ConcMap.upd_cases hu
        rcases hu with ⟨rfl, hu⟩ | ⟨hut, hu⟩
        · cases hu
        · exact hl u T' hu
      · rw [h1] at hst; simp at hst
  rw [key.1]
  exact ⟨rfl, rfl⟩

/-- **C17.** The table left by merging two empty sets is not usable: the computed size is 0, and a
lookup in the resulting table accesses a slot outside of the empty array. -/
theorem C17_empty_unusable (a : Nat) (A B : ConcSet.Shared) (hA : A.items = 0) (hB : B.items = 0)
    (F : Nat → Bool) (k : Nat) :
    Returns (fun fuel => newSize fuel A.items B.items) 0 ∧
    ConcSet.step false (init A B F 0).new (ConcSet.start a (.contains k)) = none := by
  constructor
  · refine ⟨1, fun m hm => ?_⟩
    obtain ⟨m, rfl⟩ : ∃ m', m = m' + 1 := ⟨m - 1, by omega⟩
    rw [hA, hB]
    rfl
  · simp [init, ConcSet.start, ConcSet.step]

/-- A setting that meets the hypotheses: `{3, 5} ∪ {4, 6}` without 4, two tasks
which run interleaved. -/
example : ∃ c : Config 2 Shared Loc Chunk Unit,
    Setting ⟨[0, 5, 0, 3], 2, 1⟩ ⟨[4, 0, 6, 0], 2, 1⟩ (fun k => k == 4) 8 c ∧ c.quiescent ∧
    c.hist = [.inv 0 ⟨0, 2⟩, .inv 1 ⟨2, 4⟩, .res 1 ⟨2, 4⟩ (), .res 0 ⟨0, 2⟩ ()] ∧
    c.sh.new.arr = [0, 0, 0, 3, 0, 5, 6, 0] := by
  have hx : (exec obj (fun op => decide (op.lo ≤ op.hi))
      (Config.init 2 (init ⟨[0, 5, 0, 3], 2, 1⟩ ⟨[4, 0, 6, 0], 2, 1⟩ (fun k => k == 4) 8))
      ([.call 0 ⟨0, 2⟩, .call 1 ⟨2, 4⟩, .run 0, .run 0, .run 0, .run 0, .run 0, .run 0, .run 0, .run 1, .run 1, .run 1, .run 1, .run 1,
        .run 1, .run 1, .run 1, .run 1, .run 1, .run 1, .run 0])).map
        (fun c => (c.hist, c.sh.new.arr, (c.th 0).isNone, (c.th 1).isNone))
      = some ([.inv 0 ⟨0, 2⟩, .inv 1 ⟨2, 4⟩, .res 1 ⟨2, 4⟩ (), .res 0 ⟨0, 2⟩ ()],
        [0, 0, 0, 3, 0, 5, 6, 0], true, true) := by decide
  obtain ⟨c, hc, he⟩ := Option.map_eq_some_iff.1 hx
  simp only [Prod.mk.injEq] at he
  refine ⟨c, ⟨by decide, by decide, by decide, ?_, ?_⟩, ?_, he.1, he.2.1⟩
  · refine ⟨2, fun m hm => ?_⟩
    obtain ⟨m, rfl⟩ : ∃ m', m = m' + 2 := ⟨m - 2, by omega⟩
    have : nextPow2 4 = 4 := nextPow2_pow 2
    simp [newSize, growLoop, this]
  · exact reach_mono (fun op h => by simpa using h) (exec_reach .init hc)
  · intro t
    have h1 := he.2.2
    simp only [Option.isNone_iff_eq_none] at h1
    match t with
    | 0 => exact h1.1
    | 1 => exact h1.2

end BulkMerge
end Verif
