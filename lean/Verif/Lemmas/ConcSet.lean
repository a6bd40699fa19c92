import Verif.Spec.ConcSet
import Verif.Lemmas.Conc
import Verif.Lemmas.Probe

/-!
# Invariants of the lock-free hash set
-/
namespace Verif
namespace ConcSet
open Conc

/-- The first `d` slots of the probe sequence hold other keys. -/
def Passed (arr : List Nat) (h k d : Nat) : Prop :=
  ∀ e, e < d → sl arr (h + e) ≠ 0 ∧ sl arr (h + e) ≠ k

/-- Local invariant of a thread. -/
def LocOk (a : Nat) (arr : List Nat) (A : Active Loc SetOp) : Prop :=
  match A.loc with
  | .check k => A.op = .insert k ∧ k ≠ 0 ∧ A.steps = 0
  | .probe k idx cols => A.op = .insert k ∧ k ≠ 0 ∧ ∃ d, idx % arr.length = (hash64 a k + d) % arr.length ∧
      Passed arr (hash64 a k) k d ∧ A.steps ≤ 2 * d + 1 ∧ cols = d
  | .cas k i cols => A.op = .insert k ∧ k ≠ 0 ∧ ∃ d, i = (hash64 a k + d) % arr.length ∧
      Passed arr (hash64 a k) k d ∧ A.steps ≤ 2 * d + 2 ∧ cols = d
  | .incr k => A.op = .insert k ∧ k ≠ 0 ∧ k ∈ arr ∧
      ∃ d, Passed arr (hash64 a k) k d ∧ sl arr (hash64 a k + d) = k ∧ A.steps ≤ 2 * d + 3
  | .look k idx => A.op = .contains k ∧ k ≠ 0 ∧ ∃ d, idx % arr.length = (hash64 a k + d) % arr.length ∧
      Passed arr (hash64 a k) k d ∧ A.steps ≤ d

/-- A thread between its successful CAS and the increment of the counter. -/
def isIncr : Option (Active Loc SetOp) → Bool
  | some ⟨_, .incr _, _⟩ => true
  | _ => false

/-- The same, for a particular key. -/
def isIncrK (k : Nat) : Option (Active Loc SetOp) → Bool
  | some ⟨_, .incr k', _⟩ => decide (k' = k)
  | _ => false

structure SInv {n : Nat} (p a : Nat) (c : Config n Shared Loc SetOp SetRet) : Prop where
  len : c.sh.arr.length = 2 ^ p
  ha : c.sh.a = a
  path : PathOk (hash64 a) c.sh.arr
  cnt : c.sh.items + Conc.cnt isIncr c.th = occ c.sh.arr
  loc : ∀ t A, c.th t = some A → LocOk a c.sh.arr A
  win : ∀ k, k ≠ 0 → k ∈ c.sh.arr → wins k c.hist + Conc.cnt (isIncrK k) c.th = 1
  nowin : ∀ k, k ∉ c.sh.arr → wins k c.hist + Conc.cnt (isIncrK k) c.th = 0
  lose : ∀ t k b, Ev.res t (.insert k) (.bool b) ∈ c.hist → k ≠ 0 ∧ k ∈ c.sh.arr

variable {n : Nat}

theorem SInv.pos {p a : Nat} {c : Config n Shared Loc SetOp SetRet} (h : SInv p a c) :
    0 < c.sh.arr.length := by rw [h.len]; exact Nat.pow_pos (by omega)

/-! monotonicity -/

theorem sl_set_ne {arr : List Nat} (hn : 0 < arr.length) {i k j : Nat} (h0 : sl arr i = 0)
    (hj : sl arr j ≠ 0) : sl (arr.set (i % arr.length) k) j = sl arr j := by
  rw [sl_set hn, if_neg]
  intro hx
  apply hj
  rw [← h0, ← sl_mod, ← sl_mod arr i, ← hx]

theorem Passed.set {arr : List Nat} (hn : 0 < arr.length) {i k' h k d : Nat} (h0 : sl arr i = 0)
    (hp : Passed arr h k d) : Passed (arr.set (i % arr.length) k') h k d := by
  intro e he
  rw [sl_set_ne hn h0 (hp e he).1]
  exact hp e he

theorem mem_set_mono {arr : List Nat} (hn : 0 < arr.length) {i k' x : Nat} (h0 : sl arr i = 0)
    (hx0 : x ≠ 0) (hx : x ∈ arr) : x ∈ arr.set (i % arr.length) k' := by
  obtain ⟨j, hj, hjx⟩ := (mem_iff_sl x).1 hx
  rw [← hjx, ← sl_set_ne hn (k := k') h0 (by rw [hjx]; exact hx0)]
  exact sl_mem (by simpa using hn) _

theorem LocOk.set {a : Nat} {arr : List Nat} (hn : 0 < arr.length) {i k' : Nat}
    (h0 : sl arr i = 0) {A : Active Loc SetOp} (h : LocOk a arr A) :
    LocOk a (arr.set (i % arr.length) k') A := by
  unfold LocOk at *
  cases hl : A.loc <;> simp only [hl, List.length_set] at *
  · exact h
  · obtain ⟨h1, h2, d, h3, h4, h5⟩ := h
    exact ⟨h1, h2, d, h3, h4.set hn h0, h5⟩
  · obtain ⟨h1, h2, d, h3, h4, h5⟩ := h
    exact ⟨h1, h2, d, h3, h4.set hn h0, h5⟩
  · obtain ⟨h1, h2, h3, d, h4, h5, h6⟩ := h
    exact ⟨h1, h2, mem_set_mono hn h0 h2 h3, d, h4.set hn h0,
      by rw [sl_set_ne hn h0 (by rw [h5]; exact h2)]; exact h5, h6⟩
  · obtain ⟨h1, h2, d, h3, h4, h5⟩ := h
    exact ⟨h1, h2, d, h3, h4.set hn h0, h5⟩

theorem passed_succ {arr : List Nat} {h k d : Nat} (hp : Passed arr h k d)
    (h1 : sl arr (h + d) ≠ 0) (h2 : sl arr (h + d) ≠ k) : Passed arr h k (d + 1) := by
  intro e he
  rcases Nat.lt_or_ge e d with h | h
  · exact hp e h
  · have : e = d := by omega
    subst this
    exact ⟨h1, h2⟩

/-- What a step of a thread can do. -/
inductive StepCase (growing : Bool) (s : Shared) (A : Active Loc SetOp) :
    Shared → (Loc ⊕ SetRet) → Prop where
  | fullGrow (k : Nat) : growing = true → A.op = .insert k → StepCase growing s A s (.inr .full)
  | fullFix (k : Nat) : growing = false → A.op = .insert k → s.items = s.arr.length →
      StepCase growing s A s (.inr .full)
  | move (l' : Loc) : LocOk s.a s.arr ⟨A.op, l', A.steps + 1⟩ → (∀ k, l' ≠ .incr k) →
      (∀ k, A.loc ≠ .incr k) → StepCase growing s A s (.inl l')
  | found (k : Nat) : A.op = .insert k → k ∈ s.arr → (∀ k, A.loc ≠ .incr k) →
      StepCase growing s A s (.inr (.bool false))
  | cas (k d : Nat) : k ≠ 0 → A.op = .insert k → sl s.arr (hash64 s.a k + d) = 0 →
      Passed s.arr (hash64 s.a k) k d → A.steps ≤ 2 * d + 2 → (∀ k, A.loc ≠ .incr k) →
      StepCase growing s A { s with arr := s.arr.set ((hash64 s.a k + d) % s.arr.length) k }
        (.inl (.incr k))
  | incr (k : Nat) : k ≠ 0 → A.op = .insert k → A.loc = .incr k → k ∈ s.arr →
      StepCase growing s A { s with items := s.items + 1 } (.inr (.bool true))
  | seen (k : Nat) : A.op = .contains k → k ∈ s.arr → (∀ k, A.loc ≠ .incr k) →
      StepCase growing s A s (.inr (.bool true))
  | unseen (k d : Nat) : k ≠ 0 → A.op = .contains k → sl s.arr (hash64 s.a k + d) = 0 →
      Passed s.arr (hash64 s.a k) k d → (∀ k, A.loc ≠ .incr k) →
      StepCase growing s A s (.inr (.bool false))

theorem step_cases (growing : Bool) {s : Shared} {p : Nat} (hl : s.arr.length = 2 ^ p)
    {A : Active Loc SetOp} (hA : LocOk s.a s.arr A) :
    ∃ s' out, step growing s A.loc = some (s', out) ∧ StepCase growing s A s' out := by
  have hn : 0 < s.arr.length := by rw [hl]; exact Nat.pow_pos (by omega)
  unfold LocOk at hA
  cases hloc : A.loc with
  | check k =>
    simp only [hloc] at hA
    obtain ⟨h1, h2, h3⟩ := hA
    simp only [step]
    split
    · rename_i hg
      exact ⟨_, _, rfl, .fullGrow k hg.1 h1⟩
    · split
      · rename_i hg
        exact ⟨_, _, rfl, .fullFix k hg.1 h1 hg.2⟩
      · refine ⟨_, _, rfl, .move _ ⟨h1, h2, 0, rfl, fun e he => absurd he (by omega),
          by simp only; omega, rfl⟩
          (by simp) (by simp [hloc])⟩
  | probe k idx cols =>
    simp only [hloc] at hA
    obtain ⟨h1, h2, d, h3, h4, h5, h6⟩ := hA
    simp only [step]
    have hsl : sl s.arr idx = sl s.arr (hash64 s.a k + d) := by rw [← sl_mod, h3, sl_mod]
    split
    · rename_i hg
      exact ⟨_, _, rfl, .fullGrow k hg.1 h1⟩
    · rw [getElem?_mask hl]
      have hmask : maskIdx s.arr.length idx = idx % s.arr.length := by rw [hl, maskIdx_pow]
      simp only
      split
      · rename_i hk
        exact ⟨_, _, rfl, .found k h1 (by rw [← hk]; exact sl_mem hn _) (by simp [hloc])⟩
      · rename_i hk
        split
        · rename_i h0
          refine ⟨_, _, rfl, .move _ ⟨h1, h2, d + 1, ?_, ?_, by simp only; omega, by omega⟩ (by simp)
            (by simp [hloc])⟩
          · rw [hmask, Nat.mod_add_mod, ← Nat.mod_add_mod, h3, Nat.mod_add_mod, Nat.add_assoc]
          · exact passed_succ h4 (by rwa [← hsl]) (by rwa [← hsl])
        · rename_i h0
          refine ⟨_, _, rfl, .move _ ⟨h1, h2, d, ?_, h4, by simp only; omega, h6⟩ (by simp)
            (by simp [hloc])⟩
          rw [hmask, h3]
  | cas k i cols =>
    simp only [hloc] at hA
    obtain ⟨h1, h2, d, h3, h4, h5, h6⟩ := hA
    have hi : i < s.arr.length := by rw [h3]; exact Nat.mod_lt _ hn
    have hsl : s.arr[i] = sl s.arr (hash64 s.a k + d) := by
      rw [← sl_getElem _ _ hi, h3, sl_mod]
    simp only [step]
    rw [List.getElem?_eq_getElem hi]
    simp only
    split
    · rename_i h0
      rw [hsl] at h0
      refine ⟨_, _, rfl, ?_⟩
      rw [h3]
      exact .cas k d h2 h1 h0 h4 h5 (by simp [hloc])
    · rename_i h0
      split
      · rename_i hk
        exact ⟨_, _, rfl, .found k h1 (by rw [← hk]; exact List.getElem_mem hi) (by simp [hloc])⟩
      · rename_i hk
        refine ⟨_, _, rfl, .move _ ⟨h1, h2, d + 1, ?_, ?_, by simp only; omega, by omega⟩ (by simp)
            (by simp [hloc])⟩
        · rw [h3, Nat.mod_add_mod, Nat.add_assoc]
        · exact passed_succ h4 (by rwa [← hsl]) (by rwa [← hsl])
  | incr k =>
    simp only [hloc] at hA
    obtain ⟨h1, h2, h3, _⟩ := hA
    exact ⟨_, _, rfl, .incr k h2 h1 hloc h3⟩
  | look k idx =>
    simp only [hloc] at hA
    obtain ⟨h1, h2, d, h3, h4, h5⟩ := hA
    simp only [step]
    have hsl : sl s.arr idx = sl s.arr (hash64 s.a k + d) := by rw [← sl_mod, h3, sl_mod]
    rw [getElem?_mask hl]
    have hmask : maskIdx s.arr.length idx = idx % s.arr.length := by rw [hl, maskIdx_pow]
    simp only
    split
    · rename_i hk
      exact ⟨_, _, rfl, .seen k h1 (by rw [← hk]; exact sl_mem hn _) (by simp [hloc])⟩
    · rename_i hk
      split
      · rename_i h0
        exact ⟨_, _, rfl, .unseen k d h2 h1 (by rwa [← hsl]) h4 (by simp [hloc])⟩
      · rename_i h0
        refine ⟨_, _, rfl, .move _ ⟨h1, h2, d + 1, ?_, ?_, by simp only; omega⟩ (by simp)
            (by simp [hloc])⟩
        · rw [hmask, Nat.mod_add_mod, ← Nat.mod_add_mod, h3, Nat.mod_add_mod, Nat.add_assoc]
        · exact passed_succ h4 (by rwa [← hsl]) (by rwa [← hsl])

theorem isIncr_of_ne {A : Active Loc SetOp} (h : ∀ k, A.loc ≠ .incr k) : isIncr (some A) = false := by
  obtain ⟨op, l, s⟩ := A
  cases l <;> simp_all [isIncr]

theorem isIncrK_of_ne {A : Active Loc SetOp} (h : ∀ k, A.loc ≠ .incr k) (k : Nat) :
    isIncrK k (some A) = false := by
  obtain ⟨op, l, s⟩ := A
  cases l <;> simp_all [isIncrK]

theorem isIncr_full {A : Active Loc SetOp} {growing : Bool} {s s' : Shared} 
    (h : step growing s A.loc = some (s', .inr .full)) : ∀ k, A.loc ≠ .incr k := by
  intro k hk
  rw [hk] at h
  simp [step] at h

theorem wins_append {k : Nat} {h h' : List (Ev n SetOp SetRet)} :
    wins k (h ++ h') = wins k h + wins k h' := by
  unfold wins
  rw [List.countP_append]

theorem wins_append_other {k : Nat} {h : List (Ev n SetOp SetRet)} {e : Ev n SetOp SetRet}
    (he : ∀ t, e ≠ .res t (.insert k) (.bool true)) : wins k (h ++ [e]) = wins k h := by
  rw [wins_append]
  have : wins k [e] = 0 := by
    unfold wins
    rw [List.countP_eq_zero]
    intro x hx
    rw [List.mem_singleton] at hx
    subst hx
    split
    · rename_i t k'
      simp only [decide_eq_true_eq]
      rintro rfl
      exact he t rfl
    · simp
  omega

theorem wins_append_self {k : Nat} {h : List (Ev n SetOp SetRet)} {t : Fin n} :
    wins k (h ++ [.res t (.insert k) (.bool true)]) = wins k h + 1 := by
  unfold wins
  rw [List.countP_append]
  simp

theorem init_inv (p a : Nat) : SInv p a (Config.init n ⟨List.replicate (2 ^ p) 0, 0, a⟩) where
  len := by simp [Config.init]
  ha := rfl
  path := pathOk_replicate _ _
  cnt := by
    simp only [Config.init]
    rw [occ_replicate, cnt_eq_zero (fun t => rfl)]
  loc := by simp [Config.init]
  win := by
    intro k hk h
    exact absurd (List.eq_of_mem_replicate h) hk
  nowin := by
    intro k hk
    simp only [Config.init]
    rw [cnt_eq_zero (fun t => rfl)]
    rfl
  lose := by simp [Config.init]

/-- If the array does not change and the thread is not at the counter increment, before or after. -/
theorem inv_same {p a : Nat} {c : Config n Shared Loc SetOp SetRet} (h : SInv p a c)
    (t : Fin n) (x : Option (Active Loc SetOp)) (hist' : List (Ev n SetOp SetRet))
    (hx1 : isIncr x = false) (hx2 : ∀ k, isIncrK k x = false)
    (hy1 : isIncr (c.th t) = false) (hy2 : ∀ k, isIncrK k (c.th t) = false)
    (hloc : ∀ A, x = some A → LocOk a c.sh.arr A)
    (hw : ∀ k, k ≠ 0 → wins k hist' = wins k c.hist) (hw0 : wins 0 hist' = wins 0 c.hist)
    (hl : ∀ t k b, Ev.res t (.insert k) (.bool b) ∈ hist' →
      Ev.res t (.insert k) (.bool b) ∈ c.hist ∨ (k ≠ 0 ∧ k ∈ c.sh.arr)) :
    SInv p a { sh := c.sh, th := Function.update c.th t x, hist := hist' } where
  len := h.len
  ha := h.ha
  path := h.path
  cnt := by
    simp only
    rw [cnt_update_same (by rw [hx1, hy1]), h.cnt]
  loc := by
    intro u A hu
    by_cases hut : u = t
    · subst hut
      simp only [Function.update_self] at hu
      exact hloc A hu
    · simp only [Function.update_of_ne hut] at hu
      exact h.loc u A hu
  win := by
    intro k hk hm
    simp only
    rw [cnt_update_same (by rw [hx2, hy2]), hw k hk]
    exact h.win k hk hm
  nowin := by
    intro k hm
    simp only
    rw [cnt_update_same (by rw [hx2, hy2])]
    have := h.nowin k hm
    by_cases hk : k = 0
    · subst hk; rw [hw0]; exact this
    · rw [hw k hk]; exact this
  lose := by
    intro u k b hu
    rcases hl u k b hu with h1 | h1
    · exact h.lose u k b h1
    · exact h1

theorem step_inv {growing : Bool} {p a : Nat} {c c' : Config n Shared Loc SetOp SetRet}
    (h : SInv p a c) (hs : Step (obj growing a) Ok c c') : SInv p a c' := by
  have hpos := h.pos
  cases hs with
  | call t op hidle hok =>
    refine inv_same h t _ _ (by cases op <;> rfl) (by intro k; cases op <;> rfl)
      (by rw [hidle]; rfl) (by intro k; rw [hidle]; rfl) ?_ (fun k hk => wins_append_other (by simp))
      (wins_append_other (by simp)) (fun u k b hu => Or.inl (by simpa using hu))
    intro A hA
    simp only [Option.some.injEq] at hA
    subst hA
    cases op with
    | insert k => exact ⟨rfl, hok, rfl⟩
    | contains k => exact ⟨rfl, hok, 0, rfl, fun e he => absurd he (by omega), by simp⟩
  | internal t A s' l' hth hst =>
    have hA := h.loc t A hth
    rw [← h.ha] at hA
    obtain ⟨s1, out, hs1, hcase⟩ := step_cases growing h.len hA
    rw [show (obj growing a).step c.sh A.loc = step growing c.sh A.loc from rfl, hs1] at hst
    simp only [Option.some.injEq, Prod.mk.injEq] at hst
    obtain ⟨rfl, rfl⟩ := hst
    cases hcase with
    | move _ hl' hni hni2 =>
      refine inv_same h t _ _ (isIncr_of_ne hni) (isIncrK_of_ne hni)
        (by rw [hth]; exact isIncr_of_ne hni2) (by rw [hth]; exact isIncrK_of_ne hni2) ?_
        (fun _ _ => rfl) rfl (fun _ _ _ => Or.inl)
      intro B hB
      simp only [Option.some.injEq] at hB
      subst hB
      rw [← h.ha]
      exact hl'
    | cas k d hk hop h0 hp hsteps hni =>
      have hlt : (hash64 c.sh.a k + d) % c.sh.arr.length < c.sh.arr.length := Nat.mod_lt _ hpos
      have hz : c.sh.arr[(hash64 c.sh.a k + d) % c.sh.arr.length]? = some 0 := by
        rw [List.getElem?_eq_getElem hlt, ← sl_getElem _ _ hlt, sl_mod, h0]
      have hpath := h.path
      rw [← h.ha] at hpath
      have hnm : k ∉ c.sh.arr := hpath.not_mem hk h0 hp
      have hmem : k ∈ c.sh.arr.set ((hash64 c.sh.a k + d) % c.sh.arr.length) k :=
        List.mem_set hlt _
      have hni' : ∀ x, isIncrK x (c.th t) = false := by
        intro x; rw [hth]; exact isIncrK_of_ne hni x
      refine ⟨by simpa using h.len, h.ha, ?_, ?_, ?_, ?_, ?_, ?_⟩
      · simp only
        rw [← h.ha]
        exact PathOk.set hpos hpath h0 hp
      · simp only
        rw [occ_set hlt hz hk, cnt_update_add (by rw [hth]; exact isIncr_of_ne hni) rfl, ← h.cnt]
        omega
      · intro u B hu
        by_cases hut : u = t
        · subst hut
          simp only [Function.update_self, Option.some.injEq] at hu
          subst hu
          rw [← h.ha]
          refine ⟨hop, hk, hmem, d, hp.set hpos h0, ?_, by simp only; omega⟩
          rw [sl_set hpos, if_pos rfl]
        · simp only [Function.update_of_ne hut] at hu
          exact (h.loc u B hu).set hpos h0
      · intro x hx hxm
        simp only at hxm ⊢
        by_cases hxk : k = x
        · subst hxk
          rw [cnt_update_add (hni' k) (by simp [isIncrK])]
          have := h.nowin k hnm
          omega
        · rw [cnt_update_same (by rw [hni' x]; simp [isIncrK, hxk])]
          rw [mem_set_free hlt hz hx] at hxm
          rcases hxm with hxm | hxm
          · exact h.win x hx hxm
          · exact absurd hxm.symm hxk
      · intro x hxm
        simp only at hxm ⊢
        have hxk : k ≠ x := by
          rintro rfl
          exact hxm hmem
        rw [cnt_update_same (by rw [hni' x]; simp [isIncrK, hxk])]
        by_cases hx : x = 0
        · subst hx
          have h1 : wins 0 c.hist = 0 := by
            unfold wins
            rw [List.countP_eq_zero]
            intro e he
            split
            · rename_i t' k'
              simp only [decide_eq_true_eq]
              rintro rfl
              exact (h.lose _ _ _ he).1 rfl
            · simp
          have h2 : Conc.cnt (isIncrK 0) c.th = 0 := by
            apply cnt_eq_zero
            intro u
            cases hu : c.th u with
            | none => rfl
            | some B =>
              have hB := h.loc u B hu
              obtain ⟨op, l, st⟩ := B
              cases l <;> simp_all [isIncrK, LocOk]
          rw [h1, h2]
        · rw [mem_set_free hlt hz hx] at hxm
          exact h.nowin x (fun hc => hxm (Or.inl hc))
      · intro u x b hu
        have hxm := h.lose u x b hu
        exact ⟨hxm.1, mem_set_mono hpos h0 hxm.1 hxm.2⟩
  | ret t A s' r hth hst =>
    have hA := h.loc t A hth
    have hA0 := hA
    rw [← h.ha] at hA
    obtain ⟨s1, out, hs1, hcase⟩ := step_cases growing h.len hA
    rw [show (obj growing a).step c.sh A.loc = step growing c.sh A.loc from rfl, hs1] at hst
    simp only [Option.some.injEq, Prod.mk.injEq] at hst
    obtain ⟨rfl, rfl⟩ := hst
    have same : (∀ k, A.loc ≠ .incr k) → (∀ k, A.op = .insert k → r = .bool true → False) →
        (∀ k b, A.op = .insert k → r = .bool b → k ∈ c.sh.arr) →
        SInv p a { sh := c.sh, th := Function.update c.th t none, hist := c.hist ++ [.res t A.op r] } := by
      intro hni hnt hmem
      have hne : ∀ k t', (Ev.res t A.op r : Ev n SetOp SetRet) ≠ .res t' (.insert k) (.bool true) := by
        intro k t' he
        simp only [Ev.res.injEq] at he
        exact hnt k he.2.1 he.2.2
      refine inv_same h t none _ rfl (fun _ => rfl)
        (by rw [hth]; exact isIncr_of_ne hni) (by rw [hth]; exact isIncrK_of_ne hni) (by simp)
        (fun k _ => wins_append_other (hne k)) (wins_append_other (hne 0)) ?_
      intro u k b hu
      rcases List.mem_append.1 hu with hu | hu
      · exact Or.inl hu
      · simp only [List.mem_singleton, Ev.res.injEq] at hu
        obtain ⟨_, h2, h3⟩ := hu
        refine Or.inr ⟨?_, hmem k b h2.symm h3.symm⟩
        rintro rfl
        unfold LocOk at hA0
        cases hl : A.loc <;> simp only [hl] at hA0 <;> simp_all
    cases hcase with
    | fullGrow k hg hop => exact same (isIncr_full hs1) (by simp) (by simp)
    | fullFix k hg hop _ => exact same (isIncr_full hs1) (by simp) (by simp)
    | found k hop hm hni =>
      refine same hni (by simp) ?_
      intro k' b hk' _
      rw [hop] at hk'
      injection hk' with hk'
      rw [← hk']; exact hm
    | seen k hop hm hni =>
      refine same hni ?_ ?_
      · intro k' hk' _
        rw [hop] at hk'
        cases hk'
      · intro k' b hk' _
        rw [hop] at hk'
        cases hk'
    | unseen k d hk hop h0 hp hni =>
      refine same hni ?_ ?_
      · intro k' hk' _
        rw [hop] at hk'
        cases hk'
      · intro k' b hk' _
        rw [hop] at hk'
        cases hk'
    | incr k hk hop hl hm =>
      have hinc : isIncr (c.th t) = true := by
        rw [hth]
        obtain ⟨op, l, st⟩ := A
        simp only at hl
        subst hl
        rfl
      have hinck : ∀ x, isIncrK x (c.th t) = decide (k = x) := by
        intro x
        rw [hth]
        obtain ⟨op, l, st⟩ := A
        simp only at hl
        subst hl
        rfl
      have hw : ∀ x, wins x (c.hist ++ [.res t A.op (.bool true)]) =
          wins x c.hist + (if k = x then 1 else 0) := by
        intro x
        rw [hop]
        by_cases hx : k = x
        · subst hx
          rw [wins_append_self, if_pos rfl]
        · rw [wins_append_other (by simp [hx]), if_neg hx]
          rfl
      refine ⟨h.len, h.ha, h.path, ?_, ?_, ?_, ?_, ?_⟩
      · simp only
        have := cnt_update_sub (x := none) hinc rfl
        have := h.cnt
        omega
      · intro u B hu
        by_cases hut : u = t
        · subst hut
          simp only [Function.update_self, reduceCtorEq] at hu
        · simp only [Function.update_of_ne hut] at hu
          exact h.loc u B hu
      · intro x hx hxm
        simp only at hxm ⊢
        rw [hw]
        have := h.win x hx hxm
        by_cases hxk : k = x
        · subst hxk
          have := cnt_update_sub (p := isIncrK k) (f := c.th) (t := t) (x := none)
            (by rw [hinck]; simp) rfl
          simp only [if_true]
          omega
        · rw [cnt_update_same (by rw [hinck]; simp [isIncrK, hxk])]
          simp only [hxk, if_false]
          omega
      · intro x hxm
        simp only at hxm ⊢
        rw [hw]
        have := h.nowin x hxm
        have hxk : k ≠ x := by
          rintro rfl
          exact hxm hm
        rw [cnt_update_same (by rw [hinck]; simp [isIncrK, hxk])]
        simp only [hxk, if_false]
        omega
      · intro u x b hu
        rcases List.mem_append.1 hu with hu | hu
        · exact h.lose u x b hu
        · simp only [List.mem_singleton, Ev.res.injEq] at hu
          have : x = k := by
            have := hu.2.1
            rw [hop] at this
            injection this
          subst this
          exact ⟨hk, hm⟩

theorem reach_inv {growing : Bool} {p a : Nat} {c : Config n Shared Loc SetOp SetRet}
    (h : Reach (obj growing a) Ok ⟨List.replicate (2 ^ p) 0, 0, a⟩ c) : SInv p a c :=
  h.induct (init_inv p a) (fun _ _ _ hi hs => step_inv hi hs)

/-! linearizability -/

/-- The stored keys. -/
def keysOf (s : Shared) : Finset Nat := s.arr.toFinset.erase 0

theorem mem_keysOf {s : Shared} {k : Nat} : k ∈ keysOf s ↔ k ≠ 0 ∧ k ∈ s.arr := by
  simp [keysOf]

/-- Result fixed by a passed linearization point. -/
def dn : Loc → Option SetRet
  | .incr _ => some (.bool true)
  | _ => none

theorem keysOf_card {p a : Nat} {c : Config n Shared Loc SetOp SetRet} (h : SInv p a c) :
    (keysOf c.sh).card = occ c.sh.arr := by
  unfold keysOf
  rw [h.path.occ_eq_card]

theorem sim_step {growing : Bool} {p a : Nat} {c : Config n Shared Loc SetOp SetRet}
    (h : SInv p a c) {t : Fin n} {A : Active Loc SetOp} (hth : c.th t = some A) {s' : Shared}
    {out : Loc ⊕ SetRet} (hst : step growing c.sh A.loc = some (s', out)) :
    SimStep (setSpec growing (2 ^ p)) keysOf dn c.sh A s' out := by
  have hpos := h.pos
  have hA := h.loc t A hth
  rw [← h.ha] at hA
  have hA0 := hA
  obtain ⟨s1, out', hs1, hcase⟩ := step_cases growing h.len hA
  rw [hs1] at hst
  simp only [Option.some.injEq, Prod.mk.injEq] at hst
  obtain ⟨rfl, rfl⟩ := hst
  have hdn : (∀ k, A.loc ≠ .incr k) → dn A.loc = none := by
    intro h
    cases hl : A.loc <;> simp_all [dn]
  have hpath := h.path
  rw [← h.ha] at hpath
  unfold SimStep
  cases hcase with
  | fullGrow k hg hop =>
    rw [hdn (isIncr_full hs1)]
    simp only [hop, setSpec]
    exact ⟨trivial, Or.inl hg⟩
  | fullFix k hg hop hit =>
    rw [hdn (isIncr_full hs1)]
    simp only [hop, setSpec]
    refine ⟨trivial, Or.inr ?_⟩
    rw [keysOf_card h]
    have h1 := h.cnt
    have h2 := occ_le c.sh.arr
    have h3 := h.len
    omega
  | move l' hl' hni hni2 =>
    rw [hdn hni2]
    have : dn l' = none := by cases l' <;> simp_all [dn]
    simp only [this]
  | found k hop hm hni =>
    rw [hdn hni]
    simp only [hop, setSpec]
    refine ⟨mem_keysOf.2 ⟨?_, hm⟩, trivial⟩
    rintro rfl
    unfold LocOk at hA0
    cases hl : A.loc <;> simp only [hl] at hA0 <;> simp_all
  | cas k d hk hop h0 hp hsteps hni =>
    rw [hdn hni]
    simp only [hop, setSpec, dn]
    have hlt : (hash64 c.sh.a k + d) % c.sh.arr.length < c.sh.arr.length := Nat.mod_lt _ hpos
    have hz : c.sh.arr[(hash64 c.sh.a k + d) % c.sh.arr.length]? = some 0 := by
      rw [List.getElem?_eq_getElem hlt, ← sl_getElem _ _ hlt, sl_mod, h0]
    have hnm : k ∉ c.sh.arr := hpath.not_mem hk h0 hp
    refine ⟨fun hc => hnm (mem_keysOf.1 hc).2, ?_⟩
    ext x
    rw [mem_keysOf, Finset.mem_insert, mem_keysOf]
    by_cases hx : x = 0
    · subst hx
      simp [hk.symm]
    · simp only
      rw [mem_set_free hlt hz hx]
      constructor
      · rintro ⟨_, h | h⟩
        · exact Or.inr ⟨hx, h⟩
        · exact Or.inl h
      · rintro (h | h)
        · exact ⟨hx, Or.inr h⟩
        · exact ⟨hx, Or.inl h.2⟩
  | incr k hk hop hl hm =>
    rw [hl]
    simp only [dn]
    exact ⟨rfl, trivial⟩
  | seen k hop hm hni =>
    rw [hdn hni]
    simp only [hop, setSpec]
    refine ⟨?_, trivial⟩
    simp only [true_iff]
    refine mem_keysOf.2 ⟨?_, hm⟩
    rintro rfl
    unfold LocOk at hA0
    cases hl : A.loc <;> simp only [hl] at hA0 <;> simp_all
  | unseen k d hk hop h0 hp hni =>
    rw [hdn hni]
    simp only [hop, setSpec]
    have hnm : k ∉ c.sh.arr := hpath.not_mem hk h0 hp
    refine ⟨?_, trivial⟩
    simp only [Bool.false_eq_true, false_iff]
    exact fun hc => hnm (mem_keysOf.1 hc).2

theorem linearizable {growing : Bool} {p a : Nat} {c : Config n Shared Loc SetOp SetRet}
    (h : Reach (obj growing a) Ok ⟨List.replicate (2 ^ p) 0, 0, a⟩ c) :
    Linearizable (setSpec growing (2 ^ p)) ∅ c.hist := by
  have h0 : keysOf ⟨List.replicate (2 ^ p) 0, 0, a⟩ = ∅ := by
    ext x
    rw [mem_keysOf]
    simp only [Finset.notMem_empty, iff_false, not_and]
    exact fun hx hm => hx (List.eq_of_mem_replicate hm)
  rw [← h0]
  exact linearizable_of_sim (dn := dn) (by intro op; cases op <;> rfl)
    (fun c t A hc hth s' out hst => sim_step (reach_inv hc) hth hst) h

/-! consequences of linearizability -/

theorem legal_inserted {growing : Bool} {cap : Nat} {e : List (LEv n SetOp SetRet)}
    {st : Fin n → Status SetOp SetRet} {s : Finset Nat}
    (h : Legal (setSpec growing cap) ∅ e st s) :
    (∀ t k b, st t = .linearized (.insert k) (.bool b) → k ∈ s) ∧
    (∀ t k b, Ev.res t (.insert k) (.bool b) ∈ e.filterMap LEv.visible → k ∈ s) := by
  induction h with
  | nil => simp
  | @inv e st s t op hl hid ih =>
    refine ⟨?_, ?_⟩
    · intro u k b hu
      by_cases hut : u = t
      · subst hut; simp at hu
      · rw [Function.update_of_ne hut] at hu; exact ih.1 u k b hu
    · intro u k b hu
      apply ih.2 u k b
      simpa [LEv.visible] using hu
  | @lin e st s s' t op r hl hp hsp ih =>
    have hmono : ∀ x, x ∈ s → x ∈ s' := by
      intro x hx
      unfold setSpec at hsp
      split at hsp <;> first | (exact hsp.elim) | (obtain ⟨h1, h2⟩ := hsp; simp_all)
    refine ⟨?_, ?_⟩
    · intro u k b hu
      by_cases hut : u = t
      · subst hut
        rw [Function.update_self] at hu
        simp only [Status.linearized.injEq] at hu
        obtain ⟨rfl, rfl⟩ := hu
        cases b
        · exact hmono k hsp.1
        · rw [hsp.2]; exact Finset.mem_insert_self _ _
      · rw [Function.update_of_ne hut] at hu; exact hmono k (ih.1 u k b hu)
    · intro u k b hu
      apply hmono
      apply ih.2 u k b
      simpa [LEv.visible] using hu
  | @res e st s t op r hl hp ih =>
    refine ⟨?_, ?_⟩
    · intro u k b hu
      by_cases hut : u = t
      · subst hut; simp at hu
      · rw [Function.update_of_ne hut] at hu; exact ih.1 u k b hu
    · intro u k b hu
      simp only [List.filterMap_append, List.mem_append, LEv.visible] at hu
      rcases hu with hu | hu
      · exact ih.2 u k b hu
      · simp [LEv.visible] at hu
        obtain ⟨rfl, rfl, rfl⟩ := hu
        exact ih.1 u k b hp

theorem snoc_eq_append {α : Type} {l : List α} {x : α} {l1 l2 : List α} (h : l ++ [x] = l1 ++ l2) :
    (l2 = [] ∧ l1 = l ++ [x]) ∨ ∃ l2', l2 = l2' ++ [x] ∧ l = l1 ++ l2' := by
  rcases List.eq_nil_or_concat l2 with rfl | ⟨l2', y, rfl⟩
  · left; simpa using h.symm
  · right
    rw [List.concat_eq_append, ← List.append_assoc] at h
    have := List.append_inj' h rfl
    simp only [List.cons.injEq, and_true] at this
    exact ⟨l2', by rw [this.2, List.concat_eq_append], this.1⟩

theorem legal_late {growing : Bool} {cap : Nat} {e : List (LEv n SetOp SetRet)}
    {st : Fin n → Status SetOp SetRet} {s : Finset Nat}
    (h : Legal (setSpec growing cap) ∅ e st s) (t t' : Fin n) (k : Nat) (b : Bool) :
    ∀ h1 h2 h3, e.filterMap LEv.visible =
      (h1 ++ [.res t (.insert k) (.bool b)] ++ h2 ++ [.inv t' (.contains k)]) ++ h3 →
      (∀ x ∈ h3, thread x ≠ t') →
      st t' = .pending (.contains k) ∨ st t' = .linearized (.contains k) (.bool true) := by
  induction h with
  | nil => intro h1 h2 h3 he; simp at he
  | @inv e st s u op hl hid ih =>
    intro h1 h2 h3 he h3t
    rw [List.filterMap_append] at he
    rcases snoc_eq_append (x := Ev.inv u op) he with ⟨_, he⟩ | ⟨h3', rfl, he2⟩
    · have := List.append_inj' he rfl
      simp only [List.cons.injEq, Ev.inv.injEq, and_true] at this
      obtain ⟨_, rfl, rfl⟩ := this
      left; simp
    · have hne := h3t (.inv u op) (by simp)
      simp only [thread] at hne
      rw [Function.update_of_ne (Ne.symm hne)]
      exact ih h1 h2 h3' he2 (fun x hx => h3t x (by simp [hx]))
  | @lin e st s s' u op r hl hp hsp ih =>
    intro h1 h2 h3 he h3t
    have he' : e.filterMap LEv.visible =
      (h1 ++ [.res t (.insert k) (.bool b)] ++ h2 ++ [.inv t' (.contains k)]) ++ h3 := by
      rw [← he]; simp [LEv.visible]
    have hks : k ∈ s := (legal_inserted hl).2 t k b (by rw [he']; simp)
    have := ih h1 h2 h3 he' h3t
    by_cases hut : t' = u
    · subst hut
      rw [Function.update_self]
      right
      rw [hp] at this
      simp only [Status.pending.injEq, reduceCtorEq, or_false] at this
      subst this
      cases r with
      | full => exact hsp.elim
      | bool b =>
        have := hsp.1.2 hks
        rw [this]
    · rw [Function.update_of_ne hut]
      exact this
  | @res e st s u op r hl hp ih =>
    intro h1 h2 h3 he h3t
    rw [List.filterMap_append] at he
    rcases snoc_eq_append (x := Ev.res u op r) he with ⟨_, he⟩ | ⟨h3', rfl, he2⟩
    · have := List.append_inj' he rfl
      simp at this
    · have hne := h3t (.res u op r) (by simp)
      simp only [thread] at hne
      rw [Function.update_of_ne (Ne.symm hne)]
      exact ih h1 h2 h3' he2 (fun x hx => h3t x (by simp [hx]))

theorem legal_late_res {growing : Bool} {cap : Nat} {e : List (LEv n SetOp SetRet)}
    {st : Fin n → Status SetOp SetRet} {s : Finset Nat}
    (h : Legal (setSpec growing cap) ∅ e st s) (t t' : Fin n) (k : Nat) (b : Bool) (r : SetRet) :
    ∀ h1 h2 h3 h4, e.filterMap LEv.visible =
      (h1 ++ [.res t (.insert k) (.bool b)] ++ h2 ++ [.inv t' (.contains k)] ++ h3 ++
        [.res t' (.contains k) r]) ++ h4 →
      (∀ x ∈ h3, thread x ≠ t') → r = .bool true := by
  induction h with
  | nil => intro h1 h2 h3 h4 he; simp at he
  | @inv e st s u op hl hid ih =>
    intro h1 h2 h3 h4 he h3t
    rw [List.filterMap_append] at he
    rcases snoc_eq_append (x := Ev.inv u op) he with ⟨_, he⟩ | ⟨h4', rfl, he2⟩
    · have := List.append_inj' he rfl
      simp at this
    · exact ih h1 h2 h3 h4' he2 h3t
  | @lin e st s s' u op r hl hp hsp ih =>
    intro h1 h2 h3 h4 he h3t
    refine ih h1 h2 h3 h4 ?_ h3t
    rw [← he]; simp [LEv.visible]
  | @res e st s u op r' hl hp ih =>
    intro h1 h2 h3 h4 he h3t
    rw [List.filterMap_append] at he
    rcases snoc_eq_append (x := Ev.res u op r') he with ⟨_, he⟩ | ⟨h4', rfl, he2⟩
    · have := List.append_inj' he rfl
      simp only [List.cons.injEq, Ev.res.injEq, and_true] at this
      obtain ⟨h0, rfl, rfl, rfl⟩ := this
      have := legal_late hl t t' k b h1 h2 h3 h0.symm h3t
      rw [hp] at this
      simpa using this
    · exact ih h1 h2 h3 h4' he2 h3t

/-! executions with bounded key sets -/

theorem reach_sub {growing : Bool} {p a : Nat} {K : Finset Nat}
    {c : Config n Shared Loc SetOp SetRet}
    (h : Reach (obj growing a) (OkIn K) ⟨List.replicate (2 ^ p) 0, 0, a⟩ c) :
    (∀ x ∈ c.sh.arr, x ≠ 0 → x ∈ K) ∧ (∀ t A, c.th t = some A → A.op.key ∈ K) := by
  induction h with
  | init =>
    refine ⟨?_, by simp [Config.init]⟩
    intro x hx h0
    exact absurd (List.eq_of_mem_replicate hx) h0
  | @step c c' hc hs ih =>
    have hinv : SInv p a c := reach_inv (reach_mono (fun op h => h.1) hc)
    have hth : ∀ t x A, (∀ B, x = some B → B.op.key ∈ K) →
        ∀ u, Function.update c.th t x u = some A → A.op.key ∈ K := by
      intro t x A hx u hu
      by_cases hut : u = t
      · subst hut
        rw [Function.update_self] at hu
        exact hx A hu
      · rw [Function.update_of_ne hut] at hu
        exact ih.2 u A hu
    cases hs with
    | call t op hidle hok =>
      refine ⟨ih.1, fun u A hu => hth t _ A ?_ u hu⟩
      intro B hB
      injection hB with hB
      subst hB
      exact hok.2
    | internal t A s' l' hA hst =>
      refine ⟨?_, fun u B hu => hth t _ B ?_ u hu⟩
      · have hloc := hinv.loc t A hA
        rw [← hinv.ha] at hloc
        obtain ⟨s1, out, hs1, hcase⟩ := step_cases growing hinv.len hloc
        rw [show (obj growing a).step c.sh A.loc = step growing c.sh A.loc from rfl, hs1] at hst
        simp only [Option.some.injEq, Prod.mk.injEq] at hst
        obtain ⟨rfl, rfl⟩ := hst
        cases hcase with
        | move _ _ _ _ => exact ih.1
        | cas k d hk hop h0 hp hsteps hni =>
          intro x hx hx0
          rcases List.mem_or_eq_of_mem_set hx with hx | hx
          · exact ih.1 x hx hx0
          · have := ih.2 t A hA
            rw [hop] at this
            rw [hx]; exact this
      · intro C hC
        injection hC with hC
        subst hC
        exact ih.2 t A hA
    | ret t A s' r hA hst =>
      refine ⟨?_, fun u B hu => hth t _ B (by simp) u hu⟩
      have hloc := hinv.loc t A hA
      rw [← hinv.ha] at hloc
      obtain ⟨s1, out, hs1, hcase⟩ := step_cases growing hinv.len hloc
      rw [show (obj growing a).step c.sh A.loc = step growing c.sh A.loc from rfl, hs1] at hst
      simp only [Option.some.injEq, Prod.mk.injEq] at hst
      obtain ⟨rfl, rfl⟩ := hst
      cases hcase <;> exact ih.1

/-- A probe sequence cannot pass all slots while the keys fit into the table. -/
theorem passed_lt {p a : Nat} {K : Finset Nat} {c : Config n Shared Loc SetOp SetRet}
    (h : SInv p a c) (hsub : ∀ x ∈ c.sh.arr, x ≠ 0 → x ∈ K) (hK : K.card ≤ 2 ^ p) {hh k d : Nat}
    (hkK : k ∈ K) (hp : Passed c.sh.arr hh k d) : d < 2 ^ p := by
  by_contra hc
  push Not at hc
  have hpos := h.pos
  -- every slot is passed
  have hall : ∀ x ∈ c.sh.arr, x ≠ 0 ∧ x ≠ k := by
    intro x hx
    obtain ⟨i, hi, hix⟩ := (mem_iff_sl x).1 hx
    obtain ⟨e, he, hei⟩ : ∃ e, e < c.sh.arr.length ∧ (hh + e) % c.sh.arr.length = i := by
      refine ⟨(i + (c.sh.arr.length - hh % c.sh.arr.length)) % c.sh.arr.length, Nat.mod_lt _ hpos, ?_⟩
      have hlt : hh % c.sh.arr.length < c.sh.arr.length := Nat.mod_lt _ hpos
      rw [Nat.add_mod_mod, ← Nat.mod_add_mod,
        show hh % c.sh.arr.length + (i + (c.sh.arr.length - hh % c.sh.arr.length)) =
          i + c.sh.arr.length by omega, Nat.add_mod_right, Nat.mod_eq_of_lt hi]
    have := hp e (by rw [h.len] at he; omega)
    rw [← sl_mod, hei, hix] at this
    exact this
  have hocc : occ c.sh.arr = c.sh.arr.length := by
    unfold occ
    rw [List.countP_eq_length]
    intro x hx
    simp [(hall x hx).1]
  have hcard := keysOf_card h
  have hss : keysOf c.sh ⊆ K.erase k := by
    intro x hx
    have hx := mem_keysOf.1 hx
    exact Finset.mem_erase.2 ⟨(hall x hx.2).2, hsub x hx.2 hx.1⟩
  have h1 := Finset.card_le_card hss
  rw [Finset.card_erase_of_mem hkK] at h1
  have h2 : 0 < K.card := Finset.card_pos.2 ⟨k, hkK⟩
  rw [h.len] at hocc
  omega

end ConcSet
end Verif
