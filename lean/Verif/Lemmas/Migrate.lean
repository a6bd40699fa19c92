import Verif.Model.Migrate
import Verif.Lemmas.ConcSet
import Verif.Lemmas.ConcMap

/-!
# Invariants of the cooperative migration
-/
namespace Verif
namespace Migrate
open Conc
open ConcSet (Passed passed_succ)
open ConcMap (upd_cases)

/-- The slots a thread has claimed but not read yet. -/
def remaining : Loc → Nat → Nat → Prop
  | .slot i e, lo, hi => lo = i ∧ hi = e
  | .probe _ _ i e, lo, hi => lo = i + 1 ∧ hi = e
  | .cas _ _ i e, lo, hi => lo = i + 1 ∧ hi = e
  | .incr i e, lo, hi => lo = i + 1 ∧ hi = e
  | _, lo, hi => lo = 0 ∧ hi = 0

/-- Whether slot `j` is claimed but not read yet by a thread. -/
def remL (j : Nat) : Loc → Bool
  | .slot i e => decide (i ≤ j ∧ j < e)
  | .probe _ _ i e => decide (i + 1 ≤ j ∧ j < e)
  | .cas _ _ i e => decide (i + 1 ≤ j ∧ j < e)
  | .incr i e => decide (i + 1 ≤ j ∧ j < e)
  | _ => false

def rem (j : Nat) : Option (Active Loc Unit) → Bool
  | none => false
  | some A => remL j A.loc

/-- A thread counted by `helperThreads`. -/
def insideL : Loc → Bool
  | .enter => false
  | .wait => false
  | _ => true

def inside : Option (Active Loc Unit) → Bool
  | none => false
  | some A => insideL A.loc

def pendL : Loc → Bool
  | .incr _ _ => true
  | _ => false

def pend : Option (Active Loc Unit) → Bool
  | none => false
  | some A => pendL A.loc

/-- A thread is about to insert key `k`, read from slot `i`. -/
def carries (k i : Nat) : Loc → Prop
  | .probe k' _ i' _ => k' = k ∧ i' = i
  | .cas k' _ i' _ => k' = k ∧ i' = i
  | _ => False

/-- Local invariant. -/
def LocOk (s : Shared) : Loc → Prop
  | .slot i e => i < e ∧ e ≤ s.old.length
  | .probe k idx i e => k ≠ 0 ∧ s.old[i]? = some k ∧ e ≤ s.old.length ∧
      ∃ d, idx % s.new.arr.length = (hash64 s.new.a k + d) % s.new.arr.length ∧
        Passed s.new.arr (hash64 s.new.a k) k d
  | .cas k j i e => k ≠ 0 ∧ s.old[i]? = some k ∧ e ≤ s.old.length ∧
      ∃ d, j = (hash64 s.new.a k + d) % s.new.arr.length ∧ Passed s.new.arr (hash64 s.new.a k) k d
  | .incr i e => e ≤ s.old.length
  | .leave => s.old.length ≤ s.copy
  | .wait => s.old.length ≤ s.copy
  | _ => True

variable {n : Nat}

structure MInv (a p : Nat) (old : List Nat) (c : Config n Shared Loc Unit Unit) : Prop where
  hold : c.sh.old = old
  ha : c.sh.new.a = a
  len : c.sh.new.arr.length = 2 ^ p
  path : PathOk (hash64 a) c.sh.new.arr
  cntI : c.sh.new.items + Conc.cnt pend c.th = occ c.sh.new.arr
  part : ∀ j, c.sh.copied.count j + Conc.cnt (rem j) c.th =
    if j < c.sh.copy ∧ j < old.length then 1 else 0
  pres : ∀ j k, j ∈ c.sh.copied → old[j]? = some k → k ≠ 0 → k ∈ c.sh.new.arr ∨
    ∃ t A, c.th t = some A ∧ carries k j A.loc
  sub : ∀ k ∈ c.sh.new.arr, k ≠ 0 → k ∈ old
  helpers : c.sh.helpers = Conc.cnt inside c.th
  loc : ∀ t A, c.th t = some A → LocOk c.sh A.loc
  ret : ∀ t, Ev.res t () () ∈ c.hist → old.length ≤ c.sh.copy ∧ c.sh.copied.Perm (List.range old.length) ∧
    ∀ k, k ≠ 0 → (k ∈ c.sh.new.arr ↔ k ∈ old)

theorem MInv.pos {a p : Nat} {old : List Nat} {c : Config n Shared Loc Unit Unit}
    (h : MInv a p old c) : 0 < c.sh.new.arr.length := by rw [h.len]; exact Nat.pow_pos (by omega)

theorem remL_next (j i e : Nat) : remL j (next i e) = decide (i + 1 ≤ j ∧ j < e) := by
  unfold next
  split
  · rfl
  · rename_i h
    simp only [remL]
    symm
    simp only [decide_eq_false_iff_not]
    omega

theorem insideL_next (i e : Nat) : insideL (next i e) = true := by
  unfold next; split <;> rfl

theorem pendL_next (i e : Nat) : pendL (next i e) = false := by
  unfold next; split <;> rfl

theorem LocOk_next {s : Shared} {i e : Nat} (h : e ≤ s.old.length) : LocOk s (next i e) := by
  unfold next
  split
  · rename_i hlt; exact ⟨hlt, h⟩
  · trivial

theorem carries_next (k i' i e : Nat) : ¬ carries k i' (next i e) := by
  unfold next; split <;> exact id

theorem LocOk.mono {s s' : Shared} (h1 : s'.old = s.old) (h2 : s'.new.arr = s.new.arr)
    (h3 : s'.new.a = s.new.a) (h4 : s.copy ≤ s'.copy) {l : Loc} (h : LocOk s l) : LocOk s' l := by
  cases l <;> simp only [LocOk, h1, h2, h3] at * <;> first | exact h | omega

theorem LocOk.set {s : Shared} (hn : 0 < s.new.arr.length) {i k' : Nat}
    (h0 : sl s.new.arr i = 0) {l : Loc} (h : LocOk s l) :
    LocOk { s with new := { s.new with arr := s.new.arr.set (i % s.new.arr.length) k' } } l := by
  cases l <;> simp only [LocOk, List.length_set] at * <;> try exact h
  · obtain ⟨h1, h2, h3, d, h4, h5⟩ := h
    exact ⟨h1, h2, h3, d, h4, h5.set hn h0⟩
  · obtain ⟨h1, h2, h3, d, h4, h5⟩ := h
    exact ⟨h1, h2, h3, d, h4, h5.set hn h0⟩

/-- A step of a thread from location `l`. -/
inductive StepCase (s : Shared) (l : Loc) : Shared → (Loc ⊕ Unit) → Prop where
  | enter : l = .enter → StepCase s l { s with helpers := s.helpers + 1 } (.inl .claim)
  | claim : l = .claim → s.copy < s.old.length →
      StepCase s l { s with copy := s.copy + blockSize }
        (.inl (.slot s.copy (min (s.copy + blockSize) s.old.length)))
  | claimEnd : l = .claim → s.old.length ≤ s.copy →
      StepCase s l { s with copy := s.copy + blockSize } (.inl .leave)
  | slot (v i e : Nat) : l = .slot i e → i < e → s.old[i]? = some v → v ≠ 0 → e ≤ s.old.length →
      StepCase s l { s with copied := s.copied ++ [i] } (.inl (.probe v (hash64 s.new.a v) i e))
  | slotFree (i e : Nat) : l = .slot i e → i < e → s.old[i]? = some 0 → e ≤ s.old.length →
      StepCase s l { s with copied := s.copied ++ [i] } (.inl (next i e))
  | move (l' : Loc) : LocOk s l' → (∀ j, remL j l' = remL j l) → insideL l' = insideL l →
      pendL l' = false → pendL l = false → (∀ k i, carries k i l → carries k i l') →
      StepCase s l s (.inl l')
  | skip (k i : Nat) (l' : Loc) : carries k i l → k ∈ s.new.arr → LocOk s l' →
      (∀ j, remL j l' = remL j l) → insideL l' = insideL l → pendL l' = false → pendL l = false →
      StepCase s l s (.inl l')
  | cas (k d i e j : Nat) : l = .cas k j i e → k ≠ 0 → s.old[i]? = some k → e ≤ s.old.length →
      sl s.new.arr (hash64 s.new.a k + d) = 0 →
      Passed s.new.arr (hash64 s.new.a k) k d →
      StepCase s l
        { s with new :=
          { s.new with arr := s.new.arr.set ((hash64 s.new.a k + d) % s.new.arr.length) k } }
        (.inl (.incr i e))
  | incr (i e : Nat) : l = .incr i e → e ≤ s.old.length →
      StepCase s l { s with new := { s.new with items := s.new.items + 1 } } (.inl (next i e))
  | leave : l = .leave → s.old.length ≤ s.copy →
      StepCase s l { s with helpers := s.helpers - 1 } (.inl .wait)
  | ret : l = .wait → s.old.length ≤ s.copy → s.helpers = 0 → StepCase s l s (.inr ())

theorem step_cases {s : Shared} {p : Nat} (hl : s.new.arr.length = 2 ^ p) {l : Loc}
    (hA : LocOk s l) : ∃ s' out, step s l = some (s', out) ∧ StepCase s l s' out := by
  have hn : 0 < s.new.arr.length := by rw [hl]; exact Nat.pow_pos (by omega)
  cases l with
  | enter => exact ⟨_, _, rfl, .enter rfl⟩
  | claim =>
    simp only [step]
    split
    · rename_i h
      exact ⟨_, _, rfl, .claim rfl h⟩
    · rename_i h
      exact ⟨_, _, rfl, .claimEnd rfl (by omega)⟩
  | slot i e =>
    have hi : i < s.old.length := Nat.lt_of_lt_of_le hA.1 hA.2
    simp only [step, List.getElem?_eq_getElem hi]
    split
    · rename_i h
      exact ⟨_, _, rfl, .slot _ i e rfl hA.1 (List.getElem?_eq_getElem hi) h hA.2⟩
    · rename_i h
      simp only [ne_eq, not_not] at h
      exact ⟨_, _, rfl, .slotFree i e rfl hA.1 (by rw [List.getElem?_eq_getElem hi, h]) hA.2⟩
  | probe k idx i e =>
    obtain ⟨h1, h2, he, d, h3, h4⟩ := hA
    simp only [step]
    have hsl : sl s.new.arr idx = sl s.new.arr (hash64 s.new.a k + d) := by
      rw [← sl_mod, h3, sl_mod]
    have hget := getElem?_mask hl idx
    have hmask : maskIdx s.new.arr.length idx = idx % s.new.arr.length := by rw [hl, maskIdx_pow]
    rw [hget]
    simp only
    split
    · rename_i hk
      exact ⟨_, _, rfl, .skip k i _ ⟨rfl, rfl⟩ (by rw [← hk]; exact sl_mem hn _) (LocOk_next he)
        (fun j => remL_next j i e) (insideL_next i e) (pendL_next i e) rfl⟩
    · rename_i hk
      split
      · rename_i h0
        refine ⟨_, _, rfl, .move _ ⟨h1, h2, he, d + 1, ?_, ?_⟩ (fun j => rfl) rfl rfl rfl
          (fun _ _ h => h)⟩
        · rw [hmask, Nat.mod_add_mod, ← Nat.mod_add_mod, h3, Nat.mod_add_mod, Nat.add_assoc]
        · exact passed_succ h4 (by rwa [← hsl]) (by rwa [← hsl])
      · exact ⟨_, _, rfl, .move _ ⟨h1, h2, he, d, by rw [hmask, h3], h4⟩ (fun j => rfl) rfl rfl rfl
          (fun _ _ h => h)⟩
  | cas k j i e =>
    obtain ⟨h1, h2, he, d, h3, h4⟩ := hA
    have hi : j < s.new.arr.length := by rw [h3]; exact Nat.mod_lt _ hn
    have hsl : s.new.arr[j] = sl s.new.arr (hash64 s.new.a k + d) := by
      rw [← sl_getElem _ _ hi, h3, sl_mod]
    simp only [step]
    rw [List.getElem?_eq_getElem hi]
    simp only
    split
    · rename_i h0
      rw [hsl] at h0
      refine ⟨_, _, rfl, ?_⟩
      have := StepCase.cas (s := s) k d i e j rfl h1 h2 he h0 h4
      rwa [← h3] at this
    · rename_i h0
      split
      · rename_i hk
        exact ⟨_, _, rfl, .skip k i _ ⟨rfl, rfl⟩ (by rw [← hk]; exact List.getElem_mem hi)
          (LocOk_next he) (fun j => remL_next j i e) (insideL_next i e) (pendL_next i e) rfl⟩
      · rename_i hk
        refine ⟨_, _, rfl, .move _ ⟨h1, h2, he, d + 1, ?_, ?_⟩ (fun j => rfl) rfl rfl rfl
          (fun _ _ h => h)⟩
        · rw [h3, Nat.mod_add_mod, Nat.add_assoc]
        · exact passed_succ h4 (by rwa [← hsl]) (by rwa [← hsl])
  | incr i e => exact ⟨_, _, rfl, .incr i e rfl hA⟩
  | leave => exact ⟨_, _, rfl, .leave rfl hA⟩
  | wait =>
    simp only [step]
    split
    · rename_i h
      exact ⟨_, _, rfl, .ret rfl hA h⟩
    · exact ⟨_, _, rfl, .move _ hA (fun j => rfl) rfl rfl rfl (fun _ _ h => h)⟩

theorem init_inv (a p : Nat) (old : List Nat) (hp : nextPow2 (2 * old.length) = 2 ^ p) :
    MInv a p old (Config.init n (init a old)) where
  hold := rfl
  ha := rfl
  len := by simp [Config.init, init, ConcSet.new, hp]
  path := pathOk_replicate _ _
  cntI := by
    simp only [Config.init, init, ConcSet.new]
    rw [occ_replicate, cnt_eq_zero (fun t => rfl)]
  part := by
    intro j
    simp only [Config.init, init]
    rw [cnt_eq_zero (fun t => rfl)]
    simp
  pres := by simp [Config.init, init]
  sub := by
    intro k hk h0
    exact absurd (List.mem_replicate.1 hk).2 h0
  helpers := by
    simp only [Config.init, init]
    rw [cnt_eq_zero (fun t => rfl)]
  loc := by simp [Config.init]
  ret := by simp [Config.init]

/-- When all blocks are claimed and no helper is active, everything has been copied. -/
theorem complete {a p : Nat} {old : List Nat} {c : Config n Shared Loc Unit Unit}
    (h : MInv a p old c) (hc : old.length ≤ c.sh.copy) (h0 : c.sh.helpers = 0) :
    c.sh.copied.Perm (List.range old.length) ∧
    ∀ k, k ≠ 0 → (k ∈ c.sh.new.arr ↔ k ∈ old) := by
  have hin : ∀ t, inside (c.th t) = false := by
    intro t
    by_contra hne
    have := cnt_pos (p := inside) (f := c.th) (t := t) (by simpa using hne)
    have := h.helpers
    omega
  have hrem : ∀ j, Conc.cnt (rem j) c.th = 0 := by
    intro j
    refine cnt_eq_zero (fun t => ?_)
    have := hin t
    cases hA : c.th t with
    | none => rfl
    | some A =>
      rw [hA] at this
      obtain ⟨op, l, st⟩ := A
      cases l <;> first | rfl | cases this
  have hcount : ∀ j, c.sh.copied.count j = if j < old.length then 1 else 0 := by
    intro j
    have := h.part j
    rw [hrem j, Nat.add_zero] at this
    rw [this]
    by_cases hj : j < old.length
    · rw [if_pos ⟨by omega, hj⟩, if_pos hj]
    · rw [if_neg (fun hx => hj hx.2), if_neg hj]
  constructor
  · rw [List.perm_iff_count]
    intro j
    rw [hcount j]
    by_cases hj : j < old.length
    · rw [if_pos hj, List.count_eq_one_of_mem List.nodup_range (List.mem_range.2 hj)]
    · rw [if_neg hj, List.count_eq_zero_of_not_mem (by simpa using hj)]
  · intro k hk
    refine ⟨fun hm => h.sub k hm hk, fun hm => ?_⟩
    obtain ⟨j, hj, hjk⟩ := List.getElem_of_mem hm
    have hmem : j ∈ c.sh.copied := by
      rw [← List.count_pos_iff, hcount j, if_pos hj]; omega
    rcases h.pres j k hmem (by rw [List.getElem?_eq_getElem hj, hjk]) hk with h1 | ⟨t, A, hA, hcar⟩
    · exact h1
    · exfalso
      have := hin t
      rw [hA] at this
      obtain ⟨op, l, st⟩ := A
      cases l <;> first | exact hcar | cases this

theorem step_inv {a p : Nat} {old : List Nat} {c c' : Config n Shared Loc Unit Unit}
    (h : MInv a p old c) (hs : Step obj (fun _ => True) c c') : MInv a p old c' := by
  have hpos := h.pos
  cases hs with
  | call t op hidle hok =>
    have hne : ∀ u A, c.th u = some A → u ≠ t := by
      rintro u A hu rfl
      rw [hidle] at hu; cases hu
    refine ⟨h.hold, h.ha, h.len, h.path, ?_, ?_, ?_, h.sub, ?_, ?_, ?_⟩
    · simp only
      rw [cnt_update_same (by rw [hidle]; rfl), h.cntI]
    · intro j
      simp only
      rw [cnt_update_same (by rw [hidle]; rfl), h.part]
    · intro j k h1 h2 h3
      rcases h.pres j k h1 h2 h3 with h4 | ⟨u, A, hu, h4⟩
      · exact Or.inl h4
      · exact Or.inr ⟨u, A, by simp only [Function.update_of_ne (hne u _ hu)]; exact hu, h4⟩
    · simp only
      rw [cnt_update_same (by rw [hidle]; rfl), h.helpers]
    · intro u A hu
      replace hu := upd_cases hu
      rcases hu with ⟨rfl, hu⟩ | ⟨hut, hu⟩
      · injection hu with hu
        subst hu
        trivial
      · exact h.loc u A hu
    · intro u hu
      exact h.ret u (by simpa using hu)
  | internal t A s' l' hth hst =>
    have hA := h.loc t A hth
    obtain ⟨s1, out, hs1, hcase⟩ := step_cases h.len hA
    rw [show obj.step c.sh A.loc = step c.sh A.loc from rfl, hs1] at hst
    simp only [Option.some.injEq, Prod.mk.injEq] at hst
    obtain ⟨rfl, rfl⟩ := hst
    have hsame : ∀ (q : Option (Active Loc Unit) → Bool) (ql : Loc → Bool),
        (∀ B, q (some B) = ql B.loc) → ql l' = ql A.loc →
        Conc.cnt q (Function.update c.th t (some ⟨A.op, l', A.steps + 1⟩)) = Conc.cnt q c.th := by
      intro q ql hq hl
      exact cnt_update_same (by rw [hth, hq, hq, hl])
    have hpres : (∀ k j, carries k j A.loc → k ∈ c.sh.new.arr ∨ carries k j l') →
        ∀ (j k : Nat), j ∈ c.sh.copied → old[j]? = some k → k ≠ 0 → k ∈ c.sh.new.arr ∨
        ∃ u B, Function.update c.th t (some (⟨A.op, l', A.steps + 1⟩ : Active Loc Unit)) u = some B ∧
          carries k j B.loc := by
      intro hcar j k h1 h2 h3
      rcases h.pres j k h1 h2 h3 with h4 | ⟨u, B, hu, h4⟩
      · exact Or.inl h4
      · by_cases hut : u = t
        · subst hut
          rw [hth] at hu
          injection hu with hu
          subst hu
          rcases hcar k j h4 with h5 | h5
          · exact Or.inl h5
          · exact Or.inr ⟨u, _, Function.update_self .., h5⟩
        · exact Or.inr ⟨u, B, by rw [Function.update_of_ne hut, hu], h4⟩
    have hloc : ∀ s', (∀ l, LocOk c.sh l → LocOk s' l) → LocOk s' l' →
        ∀ u B, Function.update c.th t (some (⟨A.op, l', A.steps + 1⟩ : Active Loc Unit)) u = some B →
          LocOk s' B.loc := by
      intro s' hm hl' u B hu
      replace hu := upd_cases hu
      rcases hu with ⟨rfl, hu⟩ | ⟨hut, hu⟩
      · injection hu with hu
        subst hu
        exact hl'
      · exact hm _ (h.loc u B hu)
    cases hcase with
    | enter hl =>
      refine ⟨h.hold, h.ha, h.len, h.path, ?_, ?_, ?_, h.sub, ?_, ?_, h.ret⟩
      · simp only
        rw [hsame pend pendL (fun _ => rfl) (by rw [hl]; rfl), h.cntI]
      · intro j
        simp only
        rw [hsame (rem j) (remL j) (fun _ => rfl) (by rw [hl]; rfl), h.part]
      · exact hpres (by rw [hl]; exact fun _ _ hx => hx.elim)
      · simp only
        rw [cnt_update_add (by rw [hth]; simp [inside, hl, insideL]) rfl, h.helpers]
      · exact hloc _ (fun l hl => hl.mono rfl rfl rfl (Nat.le_refl _)) trivial
    | claim hl hlt =>
      refine ⟨h.hold, h.ha, h.len, h.path, ?_, ?_, ?_, h.sub, ?_, ?_, ?_⟩
      · simp only
        rw [hsame pend pendL (fun _ => rfl) (by rw [hl]; rfl), h.cntI]
      · intro j
        simp only
        have hp := h.part j
        have hlen : c.sh.old.length = old.length := by rw [h.hold]
        by_cases hj : c.sh.copy ≤ j ∧ j < min (c.sh.copy + blockSize) c.sh.old.length
        · rw [cnt_update_add (by rw [hth]; simp [rem, hl, remL]) (by simp only [rem, remL]; simpa using hj),
            if_pos (by omega)]
          rw [if_neg (by omega)] at hp
          omega
        · rw [hsame (rem j) (remL j) (fun _ => rfl) (by
            rw [hl]
            simp only [remL]
            simpa using hj), hp]
          by_cases hj2 : j < c.sh.copy ∧ j < old.length
          · rw [if_pos hj2, if_pos (by unfold blockSize; omega)]
          · rw [if_neg hj2, if_neg (by omega)]
      · exact hpres (by rw [hl]; exact fun _ _ hx => hx.elim)
      · simp only
        rw [hsame inside insideL (fun _ => rfl) (by rw [hl]; rfl), h.helpers]
      · refine hloc _ (fun l hl => LocOk.mono (s := c.sh)
        (s' := { c.sh with copy := c.sh.copy + blockSize }) rfl rfl rfl (Nat.le_add_right _ _) hl) ?_
        simp only [LocOk]
        unfold blockSize
        omega
      · intro u hu
        have := h.ret u hu
        refine ⟨?_, this.2⟩
        simp only
        omega
    | claimEnd hl hge =>
      refine ⟨h.hold, h.ha, h.len, h.path, ?_, ?_, ?_, h.sub, ?_, ?_, ?_⟩
      · simp only
        rw [hsame pend pendL (fun _ => rfl) (by rw [hl]; rfl), h.cntI]
      · intro j
        simp only
        have hlen : c.sh.old.length = old.length := by rw [h.hold]
        rw [hsame (rem j) (remL j) (fun _ => rfl) (by rw [hl]; rfl), h.part]
        by_cases hj2 : j < c.sh.copy ∧ j < old.length
        · rw [if_pos hj2, if_pos (by omega)]
        · rw [if_neg hj2, if_neg (by omega)]
      · exact hpres (by rw [hl]; exact fun _ _ hx => hx.elim)
      · simp only
        rw [hsame inside insideL (fun _ => rfl) (by rw [hl]; rfl), h.helpers]
      · refine hloc _ (fun l hl => LocOk.mono (s := c.sh)
        (s' := { c.sh with copy := c.sh.copy + blockSize }) rfl rfl rfl (Nat.le_add_right _ _) hl) ?_
        simp only [LocOk]
        omega
      · intro u hu
        have := h.ret u hu
        refine ⟨?_, this.2⟩
        simp only
        omega
    | slot v i e hl hie hv hv0 he =>
      have hlen : c.sh.old.length = old.length := by rw [h.hold]
      refine ⟨h.hold, h.ha, h.len, h.path, ?_, ?_, ?_, h.sub, ?_, ?_, ?_⟩
      · simp only
        rw [hsame pend pendL (fun _ => rfl) (by rw [hl]; rfl), h.cntI]
      · intro j
        simp only
        have hp := h.part j
        rw [List.count_append, ← hp]
        by_cases hj : j = i
        · subst hj
          have := cnt_update_sub (p := rem j) (f := c.th) (t := t)
            (x := some ⟨A.op, .probe v (hash64 c.sh.new.a v) j e, A.steps + 1⟩)
            (by rw [hth]; simp [rem, hl, remL, hie]) (by simp [rem, remL])
          simp only [List.count_singleton_self]
          omega
        · rw [hsame (rem j) (remL j) (fun _ => rfl) (by
            rw [hl]
            simp only [remL, decide_eq_decide]
            omega), List.count_singleton, if_neg (by simpa using fun hx => hj hx.symm)]
          omega
      · intro j k hj hk hk0
        simp only at hj
        rcases List.mem_append.1 hj with hj | hj
        · exact hpres (by rw [hl]; exact fun _ _ hx => hx.elim) j k hj hk hk0
        · simp only [List.mem_singleton] at hj
          subst hj
          rw [← h.hold, hv] at hk
          injection hk with hk
          exact Or.inr ⟨t, _, Function.update_self .., hk, rfl⟩
      · simp only
        rw [hsame inside insideL (fun _ => rfl) (by rw [hl]; rfl), h.helpers]
      · refine hloc _ (fun l hl => hl.mono rfl rfl rfl (Nat.le_refl _)) ?_
        exact ⟨hv0, hv, he, 0, rfl, fun e he => absurd he (by omega)⟩
      · intro u hu
        exfalso
        have h1 := (h.ret u hu).2.1
        have h2 := h.part i
        have h3 : Conc.cnt (rem i) c.th ≥ 1 :=
          cnt_pos (t := t) (by rw [hth]; simp [rem, hl, remL, hie])
        have h4 : c.sh.copied.count i = 1 := by
          rw [h1.count_eq, List.count_eq_one_of_mem List.nodup_range (List.mem_range.2 (by omega))]
        split at h2 <;> omega
    | slotFree i e hl hie hv he =>
      have hlen : c.sh.old.length = old.length := by rw [h.hold]
      refine ⟨h.hold, h.ha, h.len, h.path, ?_, ?_, ?_, h.sub, ?_, ?_, ?_⟩
      · simp only
        rw [hsame pend pendL (fun _ => rfl) (by rw [hl, pendL_next]; rfl), h.cntI]
      · intro j
        simp only
        have hp := h.part j
        rw [List.count_append, ← hp]
        by_cases hj : j = i
        · subst hj
          have := cnt_update_sub (p := rem j) (f := c.th) (t := t)
            (x := some ⟨A.op, next j e, A.steps + 1⟩)
            (by rw [hth]; simp [rem, hl, remL, hie]) (by simp [rem, remL_next])
          simp only [List.count_singleton_self]
          omega
        · rw [hsame (rem j) (remL j) (fun _ => rfl) (by
            rw [hl, remL_next]
            simp only [remL, decide_eq_decide]
            omega), List.count_singleton, if_neg (by simpa using fun hx => hj hx.symm)]
          omega
      · intro j k hj hk hk0
        simp only at hj
        rcases List.mem_append.1 hj with hj | hj
        · exact hpres (by rw [hl]; exact fun _ _ hx => hx.elim) j k hj hk hk0
        · simp only [List.mem_singleton] at hj
          subst hj
          rw [← h.hold, hv] at hk
          injection hk with hk
          exact absurd hk.symm hk0
      · simp only
        rw [hsame inside insideL (fun _ => rfl) (by rw [hl, insideL_next]; rfl), h.helpers]
      · exact hloc _ (fun l hl => hl.mono rfl rfl rfl (Nat.le_refl _)) (LocOk_next he)
      · intro u hu
        exfalso
        have h1 := (h.ret u hu).2.1
        have h2 := h.part i
        have h3 : Conc.cnt (rem i) c.th ≥ 1 :=
          cnt_pos (t := t) (by rw [hth]; simp [rem, hl, remL, hie])
        have h4 : c.sh.copied.count i = 1 := by
          rw [h1.count_eq, List.count_eq_one_of_mem List.nodup_range (List.mem_range.2 (by omega))]
        split at h2 <;> omega
    | move _ hl' hrem hin hp1 hp2 hcar =>
      refine ⟨h.hold, h.ha, h.len, h.path, ?_, ?_, ?_, h.sub, ?_, ?_, h.ret⟩
      · simp only
        rw [hsame pend pendL (fun _ => rfl) (by rw [hp1, hp2]), h.cntI]
      · intro j
        simp only
        rw [hsame (rem j) (remL j) (fun _ => rfl) (hrem j), h.part]
      · exact hpres (fun k j hx => Or.inr (hcar k j hx))
      · simp only
        rw [hsame inside insideL (fun _ => rfl) hin, h.helpers]
      · exact hloc _ (fun l hl => hl) hl'
    | skip k i _ hck hkm hl' hrem hin hp1 hp2 =>
      refine ⟨h.hold, h.ha, h.len, h.path, ?_, ?_, ?_, h.sub, ?_, ?_, h.ret⟩
      · simp only
        rw [hsame pend pendL (fun _ => rfl) (by rw [hp1, hp2]), h.cntI]
      · intro j
        simp only
        rw [hsame (rem j) (remL j) (fun _ => rfl) (hrem j), h.part]
      · refine hpres (fun k' j hx => Or.inl ?_)
        have : k' = k := by
          cases hl : A.loc <;> rw [hl] at hck hx <;> simp only [carries] at hck hx
          · exact hx.1.symm.trans hck.1
          · exact hx.1.symm.trans hck.1
        rw [this]; exact hkm
      · simp only
        rw [hsame inside insideL (fun _ => rfl) hin, h.helpers]
      · exact hloc _ (fun l hl => hl) hl'
    | cas k d i e j hl hk hki he h0 hp =>
      have hlt : (hash64 c.sh.new.a k + d) % c.sh.new.arr.length < c.sh.new.arr.length :=
        Nat.mod_lt _ hpos
      have hz : c.sh.new.arr[(hash64 c.sh.new.a k + d) % c.sh.new.arr.length]? = some 0 := by
        rw [List.getElem?_eq_getElem hlt, ← sl_getElem _ _ hlt, sl_mod, h0]
      have hpath := h.path
      rw [← h.ha] at hpath
      have hmem : ∀ x, x ≠ 0 → (x ∈ c.sh.new.arr.set
          ((hash64 c.sh.new.a k + d) % c.sh.new.arr.length) k ↔ x ∈ c.sh.new.arr ∨ x = k) :=
        fun x hx => mem_set_free hlt hz hx
      have hkold : k ∈ old := by rw [← h.hold]; exact List.mem_of_getElem? hki
      refine ⟨h.hold, h.ha, by simpa using h.len, ?_, ?_, ?_, ?_, ?_, ?_, ?_, ?_⟩
      · simp only
        rw [← h.ha]
        exact PathOk.set hpos hpath h0 hp
      · simp only
        rw [occ_set hlt hz hk, cnt_update_add (by rw [hth]; simp [pend, hl, pendL]) rfl, ← h.cntI]
        omega
      · intro j
        simp only
        rw [hsame (rem j) (remL j) (fun _ => rfl) (by rw [hl]; rfl), h.part]
      · intro j' x h1 h2 h3
        simp only
        rcases h.pres j' x h1 h2 h3 with h4 | ⟨u, B, hu, h4⟩
        · exact Or.inl ((hmem x h3).2 (Or.inl h4))
        · by_cases hut : u = t
          · subst hut
            rw [hth] at hu
            injection hu with hu
            subst hu
            rw [hl] at h4
            exact Or.inl ((hmem x h3).2 (Or.inr h4.1.symm))
          · exact Or.inr ⟨u, B, by rw [Function.update_of_ne hut, hu], h4⟩
      · intro x hx hx0
        rcases (hmem x hx0).1 hx with hx | rfl
        · exact h.sub x hx hx0
        · exact hkold
      · simp only
        rw [hsame inside insideL (fun _ => rfl) (by rw [hl]; rfl), h.helpers]
      · exact hloc _ (fun l hl => hl.set hpos h0) he
      · intro u hu
        obtain ⟨h1, h2, h3⟩ := h.ret u hu
        refine ⟨h1, h2, fun x hx => ?_⟩
        simp only
        rw [hmem x hx, h3 x hx]
        constructor
        · rintro (h4 | rfl)
          · exact h4
          · exact hkold
        · exact Or.inl
    | incr i e hl he =>
      refine ⟨h.hold, h.ha, h.len, h.path, ?_, ?_, ?_, h.sub, ?_, ?_, h.ret⟩
      · simp only
        have := cnt_update_sub (p := pend) (f := c.th) (t := t)
          (x := some ⟨A.op, next i e, A.steps + 1⟩) (by rw [hth]; simp [pend, hl, pendL])
          (by simp [pend, pendL_next])
        have := h.cntI
        omega
      · intro j
        simp only
        rw [hsame (rem j) (remL j) (fun _ => rfl) (by rw [hl, remL_next]; rfl), h.part]
      · exact hpres (by rw [hl]; exact fun _ _ hx => hx.elim)
      · simp only
        rw [hsame inside insideL (fun _ => rfl) (by rw [hl, insideL_next]; rfl), h.helpers]
      · exact hloc _ (fun l hl => hl.mono rfl rfl rfl (Nat.le_refl _)) (LocOk_next he)
    | leave hl hge =>
      refine ⟨h.hold, h.ha, h.len, h.path, ?_, ?_, ?_, h.sub, ?_, ?_, h.ret⟩
      · simp only
        rw [hsame pend pendL (fun _ => rfl) (by rw [hl]; rfl), h.cntI]
      · intro j
        simp only
        rw [hsame (rem j) (remL j) (fun _ => rfl) (by rw [hl]; rfl), h.part]
      · exact hpres (by rw [hl]; exact fun _ _ hx => hx.elim)
      · simp only
        have := cnt_update_sub (p := inside) (f := c.th) (t := t)
          (x := some ⟨A.op, .wait, A.steps + 1⟩) (by rw [hth]; simp [inside, hl, insideL]) rfl
        have := h.helpers
        omega
      · exact hloc _ (fun l hl => hl.mono rfl rfl rfl (Nat.le_refl _)) hge
  | ret t A s' r hth hst =>
    have hA := h.loc t A hth
    obtain ⟨s1, out, hs1, hcase⟩ := step_cases h.len hA
    rw [show obj.step c.sh A.loc = step c.sh A.loc from rfl, hs1] at hst
    simp only [Option.some.injEq, Prod.mk.injEq] at hst
    obtain ⟨rfl, rfl⟩ := hst
    cases hcase with
    | ret hl hge h0 =>
      have hsame : ∀ (q : Option (Active Loc Unit) → Bool), q none = false → q (some A) = false →
          Conc.cnt q (Function.update c.th t none) = Conc.cnt q c.th := by
        intro q h1 h2
        exact cnt_update_same (by rw [hth, h1, h2])
      refine ⟨h.hold, h.ha, h.len, h.path, ?_, ?_, ?_, h.sub, ?_, ?_, ?_⟩
      · simp only
        rw [hsame pend rfl (by simp [pend, hl, pendL]), h.cntI]
      · intro j
        simp only
        rw [hsame (rem j) rfl (by simp [rem, hl, remL]), h.part]
      · intro j k h1 h2 h3
        rcases h.pres j k h1 h2 h3 with h4 | ⟨u, B, hu, h4⟩
        · exact Or.inl h4
        · refine Or.inr ⟨u, B, ?_, h4⟩
          simp only
          rw [Function.update_of_ne, hu]
          rintro rfl
          rw [hth] at hu
          injection hu with hu
          subst hu
          rw [hl] at h4
          exact h4
      · simp only
        rw [hsame inside rfl (by simp [inside, hl, insideL]), h.helpers]
      · intro u B hu
        replace hu := upd_cases hu
        rcases hu with ⟨rfl, hu⟩ | ⟨hut, hu⟩
        · cases hu
        · exact h.loc u B hu
      · intro u _
        rw [h.hold] at hge
        have hcomp := complete h hge h0
        exact ⟨hge, hcomp⟩

theorem reach_inv {a p : Nat} {old : List Nat} (hp : nextPow2 (2 * old.length) = 2 ^ p)
    {c : Config n Shared Loc Unit Unit} (h : Reach obj (fun _ => True) (init a old) c) :
    MInv a p old c :=
  h.induct (init_inv a p old hp) (fun _ _ _ hi hs => step_inv hi hs)

end Migrate
end Verif
