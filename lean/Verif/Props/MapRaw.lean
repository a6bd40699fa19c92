import Verif.Model.MapRaw
import Verif.Lemmas.Probe

/-!
# C130: `_insert` of the concurrent map
-/
namespace Verif
namespace ConcMap

/-- Number of free slots. -/
def freeSlots (s : Shared) : Nat := s.keys.count 0

private theorem step_eq {s : Shared} {q : Nat} (hl : s.keys.length = 2 ^ q) (k v idx : Nat) :
    ∃ x, s.keys[idx % 2 ^ q]? = some x ∧ rawStep s k v idx = some (
      { s with keys := if x = 0 then s.keys.set (idx % 2 ^ q) k else s.keys,
               vals := if x = k ∨ x = 0 then s.vals.set (idx % 2 ^ q) (some v) else s.vals,
               items := if x = 0 ∧ x ≠ k then s.items + 1 else s.items }, idx % 2 ^ q + 1) ∨ k = 0 := by
  have hlt : idx % 2 ^ q < s.keys.length := by rw [hl]; exact Nat.mod_lt _ (Nat.pow_pos (by omega))
  refine ⟨s.keys[idx % 2 ^ q], ?_⟩
  by_cases hk : k = 0
  · exact .inr hk
  left
  refine ⟨List.getElem?_eq_getElem hlt, ?_⟩
  unfold rawStep
  simp only [hl, maskIdx_pow, List.getElem?_eq_getElem hlt]
  generalize s.keys[idx % 2 ^ q] = x
  by_cases h1 : x = k
  · subst h1; simp [hk]
  · by_cases h2 : x = 0
    · subst h2; simp [h1]
    · simp [h1, h2]

/-- State in the course of the loop: the slots visited hold the key unless they held another one. -/
private structure After (s0 s : Shared) (k v q : Nat) (P : Nat → Prop) : Prop where
  len : s.keys.length = 2 ^ q
  vlen : s.vals.length = 2 ^ q
  seen : ∀ i, i < 2 ^ q → P i → (s0.keys[i]? = some 0 ∨ s0.keys[i]? = some k) → s.keys[i]? = some k ∧ s.vals[i]? = some (some v)
  same : ∀ i, ¬ (P i ∧ (s0.keys[i]? = some 0 ∨ s0.keys[i]? = some k)) → s.keys[i]? = s0.keys[i]? ∧ s.vals[i]? = s0.vals[i]?
  items : s.items + freeSlots s = s0.items + freeSlots s0
  a : s.a = s0.a

private theorem After.step {s0 s : Shared} {k v q idx : Nat} {P : Nat → Prop} (hk : k ≠ 0) (h : After s0 s k v q P) :
    ∃ s', rawStep s k v idx = some (s', idx % 2 ^ q + 1) ∧ After s0 s' k v q (fun i => P i ∨ i = idx % 2 ^ q) := by
  obtain ⟨x, ⟨hx, hs⟩ | h0⟩ := step_eq h.len k v idx
  swap
  · exact absurd h0 hk
  refine ⟨_, hs, ?_⟩
  have hlt : idx % 2 ^ q < 2 ^ q := Nat.mod_lt _ (Nat.pow_pos (by omega))
  set j := idx % 2 ^ q with hj
  have hjk : j < s.keys.length := by rw [h.len]; exact hlt
  have hjv : j < s.vals.length := by rw [h.vlen]; exact hlt
  -- what the slot held at the beginning
  have hx0 : (x = 0 ∨ x = k) ↔ (s0.keys[j]? = some 0 ∨ s0.keys[j]? = some k) := by
    by_cases hP : P j ∧ (s0.keys[j]? = some 0 ∨ s0.keys[j]? = some k)
    · have := (h.seen j hlt hP.1 hP.2).1
      rw [hx] at this
      exact ⟨fun _ => hP.2, fun _ => .inr (Option.some.inj this)⟩
    · have := (h.same j hP).1
      rw [hx] at this
      rw [← this]
      simp
  refine ⟨?_, ?_, ?_, ?_, ?_, h.a⟩
  · show (if x = 0 then _ else _ : List Nat).length = _
    split
    · rw [List.length_set, h.len]
    · exact h.len
  · show (if x = k ∨ x = 0 then _ else _ : List (Option Nat)).length = _
    split
    · rw [List.length_set, h.vlen]
    · exact h.vlen
  · intro i hi hP h0
    show (if x = 0 then s.keys.set j k else s.keys)[i]? = some k ∧ (if x = k ∨ x = 0 then s.vals.set j (some v) else s.vals)[i]? = some (some v)
    by_cases hij : i = j
    · subst hij
      have hx' := hx0.mpr h0
      refine ⟨?_, by rw [if_pos hx'.symm, List.getElem?_set_self hjv]⟩
      split
      · rw [List.getElem?_set_self hjk]
      · rename_i hz
        rw [hx, hx'.resolve_left hz]
    · obtain ⟨g1, g2⟩ := h.seen i hi (hP.resolve_right hij) h0
      constructor
      · split
        · rw [List.getElem?_set_ne (Ne.symm hij)]; exact g1
        · exact g1
      · split
        · rw [List.getElem?_set_ne (Ne.symm hij)]; exact g2
        · exact g2
  · intro i hn
    show (if x = 0 then s.keys.set j k else s.keys)[i]? = _ ∧ (if x = k ∨ x = 0 then s.vals.set j (some v) else s.vals)[i]? = _
    by_cases hij : i = j
    · subst hij
      have hx' : ¬ (x = 0 ∨ x = k) := fun hc => hn ⟨.inr rfl, hx0.mp hc⟩
      rw [if_neg (by tauto), if_neg (by tauto)]
      exact h.same _ fun hc => hn ⟨.inl hc.1, hc.2⟩
    · obtain ⟨g1, g2⟩ := h.same i fun hc => hn ⟨.inl hc.1, hc.2⟩
      constructor
      · split
        · rw [List.getElem?_set_ne (Ne.symm hij)]; exact g1
        · exact g1
      · split
        · rw [List.getElem?_set_ne (Ne.symm hij)]; exact g2
        · exact g2
  · rw [← h.items]
    show (if x = 0 ∧ x ≠ k then s.items + 1 else s.items) + (if x = 0 then s.keys.set j k else s.keys).count 0 = s.items + s.keys.count 0
    by_cases hz : x = 0
    · subst hz
      rw [if_pos ⟨rfl, Ne.symm hk⟩, if_pos rfl]
      have hget : s.keys[j] = 0 := by
        rw [List.getElem?_eq_getElem hjk] at hx; exact Option.some.inj hx
      have hpos : 0 < s.keys.count 0 := List.count_pos_iff.mpr (hget ▸ List.getElem_mem hjk)
      rw [List.count_set hjk, hget]
      simp [hk]
      omega
    · rw [if_neg (by tauto), if_neg hz]

private theorem rounds_after {s0 : Shared} {k v q : Nat} (hk : k ≠ 0) : ∀ n s idx (P : Nat → Prop), After s0 s k v q P →
    ∃ s' idx', rawRounds k v n s idx = some (s', idx') ∧ After s0 s' k v q (fun i => P i ∨ ∃ m < n, i = (idx + m) % 2 ^ q) := by
  intro n
  induction n with
  | zero =>
    intro s idx P h
    refine ⟨s, idx, rfl, ?_⟩
    have : (fun i => P i ∨ ∃ m < 0, i = (idx + m) % 2 ^ q) = P := by funext i; simp
    rw [this]; exact h
  | succ n ih =>
    intro s idx P h
    obtain ⟨s1, e1, h1⟩ := h.step hk (idx := idx)
    obtain ⟨s2, idx2, e2, h2⟩ := ih s1 (idx % 2 ^ q + 1) _ h1
    refine ⟨s2, idx2, by simp only [rawRounds, e1, Option.bind_some, e2], ?_⟩
    have : (fun i => P i ∨ ∃ m < n + 1, i = (idx + m) % 2 ^ q) =
        (fun i => (P i ∨ i = idx % 2 ^ q) ∨ ∃ m < n, i = (idx % 2 ^ q + 1 + m) % 2 ^ q) := by
      funext i
      apply propext
      have e : ∀ m, (idx % 2 ^ q + 1 + m) % 2 ^ q = (idx + (m + 1)) % 2 ^ q := fun m => by
        rw [Nat.add_assoc, Nat.mod_add_mod, Nat.add_comm 1 m]
      constructor
      · rintro (h | ⟨m, hm, rfl⟩)
        · exact .inl (.inl h)
        · rcases m with _ | m
          · exact .inl (.inr rfl)
          · exact .inr ⟨m, by omega, (e m).symm⟩
      · rintro ((h | rfl) | ⟨m, hm, rfl⟩)
        · exact .inl h
        · exact .inr ⟨0, by omega, rfl⟩
        · exact .inr ⟨m + 1, by omega, e m⟩
    rw [this]
    exact h2

/-- **C130** (violated): `_insert(key, value)` never returns. After as many rounds as there are slots, every slot that was free or held the key
holds the key with the value, no slot is free any more, `m_items` has grown by the number of free slots, and the other slots are as before. -/
theorem C130_insert_violated (s : Shared) (q : Nat) (hl : s.keys.length = 2 ^ q) (hv : s.vals.length = 2 ^ q) (k v : Nat) (hk : k ≠ 0) :
    Diverges (rawInsert s k v) ∧
    ∃ s' idx, rawRounds k v (2 ^ q) s (hash64 s.a k) = some (s', idx) ∧ freeSlots s' = 0 ∧ s'.items = s.items + freeSlots s ∧
      (∀ i < 2 ^ q, s.keys[i]? = some 0 ∨ s.keys[i]? = some k → s'.keys[i]? = some k ∧ s'.vals[i]? = some (some v)) ∧
      (∀ i : Nat, s.keys[i]? ≠ some 0 → s.keys[i]? ≠ some k → s'.keys[i]? = s.keys[i]? ∧ s'.vals[i]? = s.vals[i]?) := by
  have h0 : After s s k v q (fun _ => False) := ⟨hl, hv, fun _ _ h => h.elim, fun _ _ => ⟨rfl, rfl⟩, rfl, rfl⟩
  constructor
  · intro n
    obtain ⟨s', idx', e, _⟩ := rounds_after hk n s (hash64 s.a k) _ h0
    unfold rawInsert
    rw [e]
  · obtain ⟨s', idx', e, h⟩ := rounds_after hk (2 ^ q) s (hash64 s.a k) _ h0
    have hall : ∀ i < 2 ^ q, False ∨ ∃ m < 2 ^ q, i = (hash64 s.a k + m) % 2 ^ q := by
      intro i hi
      have hr : hash64 s.a k % 2 ^ q < 2 ^ q := Nat.mod_lt _ (by omega)
      refine .inr ⟨(i + (2 ^ q - hash64 s.a k % 2 ^ q)) % 2 ^ q, Nat.mod_lt _ (by omega), ?_⟩
      rw [Nat.add_mod_mod, ← Nat.mod_add_mod, show hash64 s.a k % 2 ^ q + (i + (2 ^ q - hash64 s.a k % 2 ^ q)) = i + 2 ^ q by omega,
        Nat.add_mod_right, Nat.mod_eq_of_lt hi]
    have hseen := fun i hi => h.seen i hi (hall i hi)
    have hfree : freeSlots s' = 0 := by
      unfold freeSlots
      rw [List.count_eq_zero]
      intro hm
      obtain ⟨i, hi, he⟩ := List.mem_iff_getElem.mp hm
      have hi' : i < 2 ^ q := by rw [← h.len]; exact hi
      have he' : s'.keys[i]? = some 0 := by rw [List.getElem?_eq_getElem hi, he]
      by_cases hc : s.keys[i]? = some 0 ∨ s.keys[i]? = some k
      · have := (hseen i hi' hc).1
        rw [he'] at this
        exact hk (Option.some.inj this).symm
      · have := (h.same i fun hh => hc hh.2).1
        rw [he'] at this
        exact hc (.inl this.symm)
    refine ⟨s', idx', e, hfree, ?_, hseen, fun i h1 h2 => h.same i fun hh => ?_⟩
    · have := h.items
      rw [hfree] at this
      omega
    · rcases hh.2 with h3 | h3
      · exact h1 h3
      · exact h2 h3

/-- A map of eight slots with the pairs (3, 30) and (5, 50), into which (7, 70) is inserted. -/
example : Diverges (rawInsert ⟨[0, 0, 0, 3, 0, 5, 0, 0], [none, none, none, some 30, none, some 50, none, none], 2, 1⟩ 7 70) ∧
    rawRounds 7 70 8 ⟨[0, 0, 0, 3, 0, 5, 0, 0], [none, none, none, some 30, none, some 50, none, none], 2, 1⟩ 7 =
      some (⟨[7, 7, 7, 3, 7, 5, 7, 7], [some 70, some 70, some 70, some 30, some 70, some 50, some 70, some 70], 8, 1⟩, 7) :=
  ⟨(C130_insert_violated _ 3 rfl rfl 7 70 (by decide)).1, rfl⟩

end ConcMap
end Verif
