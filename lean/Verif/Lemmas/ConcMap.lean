import Verif.Model.ConcMap
import Verif.Lemmas.ConcSet

/-!
# Invariants of the lock-free hash map
-/
namespace Verif
namespace ConcMap
open Conc
open ConcSet (Passed passed_succ sl_set_ne)

/-- Key of an operation. -/
def MapOp.key : MapOp → Nat
  | .insert k _ => k
  | .get k => k

/-- Precondition of the operations: the key is not zero. -/
def Ok (op : MapOp) : Prop := op.key ≠ 0

/-- Local invariant of a thread. -/
def LocOk (a : Nat) (keys : List Nat) (A : Active Loc MapOp) : Prop :=
  match A.loc with
  | .check k v => A.op = .insert k v ∧ k ≠ 0
  | .probe k v idx => A.op = .insert k v ∧ k ≠ 0 ∧ ∃ d, idx % keys.length = (hash64 a k + d) % keys.length ∧
      Passed keys (hash64 a k) k d
  | .cas k v i => A.op = .insert k v ∧ k ≠ 0 ∧ ∃ d, i = (hash64 a k + d) % keys.length ∧
      Passed keys (hash64 a k) k d
  | .store k v i _ => A.op = .insert k v ∧ k ≠ 0 ∧ keys[i]? = some k
  | .incr k v => A.op = .insert k v ∧ k ≠ 0 ∧ k ∈ keys
  | .look k idx => A.op = .get k ∧ k ≠ 0 ∧ ∃ d, idx % keys.length = (hash64 a k + d) % keys.length ∧
      Passed keys (hash64 a k) k d
  | .lookV k i => A.op = .get k ∧ k ≠ 0 ∧ keys[i]? = some k

/-- A thread between its successful CAS and the increment of the counter. -/
def isPend : Option (Active Loc MapOp) → Bool
  | some ⟨_, .store _ _ _ true, _⟩ => true
  | some ⟨_, .incr _ _, _⟩ => true
  | _ => false

/-- What is claimed about the result `v` of a `get(k)` given the history before its return. -/
def GotOk {n : Nat} (k v : Nat) (h : List (Ev n MapOp MapRet)) : Prop :=
  (∃ t', Ev.inv t' (.insert k v) ∈ h) ∨ (v = 0 ∧ ∀ t' w b, Ev.res t' (.insert k w) (.bool b) ∉ h)

theorem append_singleton_split {α : Type} {l h1 h2 : List α} {e x : α}
    (h : l ++ [e] = h1 ++ x :: h2) : (h1 = l ∧ x = e) ∨ ∃ h2', l = h1 ++ x :: h2' := by
  rcases List.eq_nil_or_concat h2 with rfl | ⟨h2', y, rfl⟩
  · have := List.append_inj' h rfl
    exact Or.inl ⟨this.1.symm, (List.singleton_inj.1 this.2).symm⟩
  · rw [List.concat_eq_append, ← List.cons_append, ← List.append_assoc] at h
    have := List.append_inj' h rfl
    exact Or.inr ⟨h2', this.1⟩

structure MInv {n : Nat} (p a : Nat) (c : Config n Shared Loc MapOp MapRet) : Prop where
  len : c.sh.keys.length = 2 ^ p
  vlen : c.sh.vals.length = c.sh.keys.length
  ha : c.sh.a = a
  path : PathOk (hash64 a) c.sh.keys
  cnt : c.sh.items + Conc.cnt isPend c.th = occ c.sh.keys
  loc : ∀ t A, c.th t = some A → LocOk a c.sh.keys A
  ops : ∀ t A, c.th t = some A → Ev.inv t A.op ∈ c.hist
  vals : ∀ (i v : Nat), c.sh.vals[i]? = some (some v) →
    ∃ k, c.sh.keys[i]? = some k ∧ k ≠ 0 ∧ ∃ t, Ev.inv t (.insert k v) ∈ c.hist
  init : ∀ (i k : Nat), c.sh.keys[i]? = some k → k ≠ 0 → c.sh.vals[i]? = some none →
    ∃ t op v st, c.th t = some ⟨op, .store k v i true, st⟩
  lose : ∀ t k v b, Ev.res t (.insert k v) (.bool b) ∈ c.hist → k ≠ 0 ∧ k ∈ c.sh.keys
  got : ∀ t k v h1 h2, c.hist = h1 ++ Ev.res t (.get k) (.val v) :: h2 → GotOk k v h1

variable {n : Nat}

theorem MInv.pos {p a : Nat} {c : Config n Shared Loc MapOp MapRet} (h : MInv p a c) :
    0 < c.sh.keys.length := by rw [h.len]; exact Nat.pow_pos (by omega)

theorem LocOk.set {a : Nat} {keys : List Nat} (hn : 0 < keys.length) {i k' : Nat}
    (h0 : sl keys i = 0) {A : Active Loc MapOp} (h : LocOk a keys A) :
    LocOk a (keys.set (i % keys.length) k') A := by
  have hget : ∀ (j k : Nat), k ≠ 0 → keys[j]? = some k → (keys.set (i % keys.length) k')[j]? = some k := by
    intro j k hk hj
    rw [List.getElem?_set_ne, hj]
    rintro rfl
    have hi : i % keys.length < keys.length := Nat.mod_lt _ hn
    rw [List.getElem?_eq_getElem hi, ← sl_getElem _ _ hi, sl_mod, h0] at hj
    injection hj with hj
    exact hk hj.symm
  unfold LocOk at *
  cases hl : A.loc <;> simp only [hl, List.length_set] at *
  · exact h
  · obtain ⟨h1, h2, d, h3, h4⟩ := h
    exact ⟨h1, h2, d, h3, h4.set hn h0⟩
  · obtain ⟨h1, h2, d, h3, h4⟩ := h
    exact ⟨h1, h2, d, h3, h4.set hn h0⟩
  · exact ⟨h.1, h.2.1, hget _ _ h.2.1 h.2.2⟩
  · refine ⟨h.1, h.2.1, ?_⟩
    obtain ⟨j, hj, hjk⟩ := List.getElem_of_mem h.2.2
    exact List.mem_of_getElem? (hget j _ h.2.1 (by rw [List.getElem?_eq_getElem hj, hjk]))
  · obtain ⟨h1, h2, d, h3, h4⟩ := h
    exact ⟨h1, h2, d, h3, h4.set hn h0⟩
  · exact ⟨h.1, h.2.1, hget _ _ h.2.1 h.2.2⟩

/-- What a step of a thread can do. -/
inductive StepCase (s : Shared) (A : Active Loc MapOp) : Shared → (Loc ⊕ MapRet) → Prop where
  | full (k v : Nat) : A.op = .insert k v → isPend (some A) = false → StepCase s A s (.inr .full)
  | move (l' : Loc) : LocOk s.a s.keys ⟨A.op, l', A.steps + 1⟩ →
      isPend (some ⟨A.op, l', A.steps + 1⟩) = false → isPend (some A) = false →
      StepCase s A s (.inl l')
  | cas (k v d : Nat) : k ≠ 0 → A.op = .insert k v → sl s.keys (hash64 s.a k + d) = 0 →
      Passed s.keys (hash64 s.a k) k d → isPend (some A) = false →
      StepCase s A { s with keys := s.keys.set ((hash64 s.a k + d) % s.keys.length) k }
        (.inl (.store k v ((hash64 s.a k + d) % s.keys.length) true))
  | storeWon (k v i : Nat) : k ≠ 0 → A.op = .insert k v → A.loc = .store k v i true →
      s.keys[i]? = some k →
      StepCase s A { s with vals := s.vals.set i (some v) } (.inl (.incr k v))
  | storeLost (k v i : Nat) : k ≠ 0 → A.op = .insert k v → A.loc = .store k v i false →
      s.keys[i]? = some k →
      StepCase s A { s with vals := s.vals.set i (some v) } (.inr (.bool false))
  | incr (k v : Nat) : A.op = .insert k v → A.loc = .incr k v →
      StepCase s A { s with items := s.items + 1 } (.inr (.bool true))
  | absent (k : Nat) : A.op = .get k → k ∉ s.keys → isPend (some A) = false →
      StepCase s A s (.inr (.val 0))
  | found (k v i : Nat) : k ≠ 0 → A.op = .get k → s.keys[i]? = some k → s.vals[i]? = some (some v) →
      isPend (some A) = false → StepCase s A s (.inr (.val v))

theorem isPend_of {A : Active Loc MapOp} (h : (∀ k v i, A.loc ≠ .store k v i true) ∧ ∀ k v, A.loc ≠ .incr k v) :
    isPend (some A) = false := by
  obtain ⟨op, l, st⟩ := A
  cases l with
  | store k v i won =>
    cases won
    · rfl
    · exact absurd rfl (h.1 k v i)
  | incr k v => exact absurd rfl (h.2 k v)
  | _ => rfl

theorem step_cases {s : Shared} {p : Nat} (hl : s.keys.length = 2 ^ p)
    (hpath : PathOk (hash64 s.a) s.keys)
    (hv : s.vals.length = s.keys.length) {A : Active Loc MapOp} (hA : LocOk s.a s.keys A) :
    (∃ s' out, step s A.loc = some (s', out) ∧ StepCase s A s' out) ∨
    (step s A.loc = none ∧ ∃ k i, A.loc = .lookV k i ∧ A.op = .get k ∧ k ≠ 0 ∧ s.keys[i]? = some k ∧
      s.vals[i]? = some none) := by
  have hn : 0 < s.keys.length := by rw [hl]; exact Nat.pow_pos (by omega)
  unfold LocOk at hA
  cases hloc : A.loc with
  | check k v =>
    simp only [hloc] at hA
    left
    simp only [step]
    split
    · exact ⟨_, _, rfl, .full k v hA.1 (isPend_of (by simp [hloc]))⟩
    · exact ⟨_, _, rfl, .move _ ⟨hA.1, hA.2, 0, rfl, fun e he => absurd he (by omega)⟩ rfl
        (isPend_of (by simp [hloc]))⟩
  | probe k v idx =>
    simp only [hloc] at hA
    obtain ⟨h1, h2, d, h3, h4⟩ := hA
    left
    simp only [step]
    have hsl : sl s.keys idx = sl s.keys (hash64 s.a k + d) := by rw [← sl_mod, h3, sl_mod]
    have hget := getElem?_mask hl idx
    have hmask : maskIdx s.keys.length idx = idx % s.keys.length := by rw [hl, maskIdx_pow]
    rw [hget]
    simp only
    split
    · rename_i hk
      refine ⟨_, _, rfl, .move _ ⟨h1, h2, ?_⟩ rfl (isPend_of (by simp [hloc]))⟩
      rw [hget, hk]
    · rename_i hk
      split
      · rename_i h0
        refine ⟨_, _, rfl, .move _ ⟨h1, h2, d + 1, ?_, ?_⟩ rfl (isPend_of (by simp [hloc]))⟩
        · rw [hmask, Nat.mod_add_mod, ← Nat.mod_add_mod, h3, Nat.mod_add_mod, Nat.add_assoc]
        · exact passed_succ h4 (by rwa [← hsl]) (by rwa [← hsl])
      · exact ⟨_, _, rfl, .move _ ⟨h1, h2, d, by rw [hmask, h3], h4⟩ rfl
          (isPend_of (by simp [hloc]))⟩
  | cas k v i =>
    simp only [hloc] at hA
    obtain ⟨h1, h2, d, h3, h4⟩ := hA
    left
    have hi : i < s.keys.length := by rw [h3]; exact Nat.mod_lt _ hn
    have hsl : s.keys[i] = sl s.keys (hash64 s.a k + d) := by
      rw [← sl_getElem _ _ hi, h3, sl_mod]
    simp only [step]
    rw [List.getElem?_eq_getElem hi]
    simp only
    split
    · rename_i h0
      rw [hsl] at h0
      refine ⟨_, _, rfl, ?_⟩
      rw [h3]
      exact .cas k v d h2 h1 h0 h4 (isPend_of (by simp [hloc]))
    · rename_i h0
      split
      · rename_i hk
        exact ⟨_, _, rfl, .move _ ⟨h1, h2, by rw [List.getElem?_eq_getElem hi, hk]⟩ rfl
          (isPend_of (by simp [hloc]))⟩
      · rename_i hk
        refine ⟨_, _, rfl, .move _ ⟨h1, h2, d + 1, ?_, ?_⟩ rfl (isPend_of (by simp [hloc]))⟩
        · rw [h3, Nat.mod_add_mod, Nat.add_assoc]
        · exact passed_succ h4 (by rwa [← hsl]) (by rwa [← hsl])
  | store k v i won =>
    simp only [hloc] at hA
    obtain ⟨h1, h2, h3⟩ := hA
    left
    have hi : i < s.vals.length := by
      rw [hv]
      exact (List.getElem?_eq_some_iff.1 h3).1
    simp only [step, hi, if_true]
    cases won with
    | true => exact ⟨_, _, rfl, .storeWon k v i h2 h1 hloc h3⟩
    | false => exact ⟨_, _, rfl, .storeLost k v i h2 h1 hloc h3⟩
  | incr k v =>
    simp only [hloc] at hA
    exact Or.inl ⟨_, _, rfl, .incr k v hA.1 hloc⟩
  | look k idx =>
    simp only [hloc] at hA
    obtain ⟨h1, h2, d, h3, h4⟩ := hA
    left
    simp only [step]
    have hsl : sl s.keys idx = sl s.keys (hash64 s.a k + d) := by rw [← sl_mod, h3, sl_mod]
    have hget := getElem?_mask hl idx
    have hmask : maskIdx s.keys.length idx = idx % s.keys.length := by rw [hl, maskIdx_pow]
    rw [hget]
    simp only
    split
    · rename_i hk
      refine ⟨_, _, rfl, .move _ ⟨h1, h2, ?_⟩ rfl (isPend_of (by simp [hloc]))⟩
      rw [hget, hk]
    · rename_i hk
      split
      · rename_i h0
        exact ⟨_, _, rfl, .absent k h1 (hpath.not_mem h2 (by rwa [← hsl]) h4)
          (isPend_of (by simp [hloc]))⟩
      · rename_i h0
        refine ⟨_, _, rfl, .move _ ⟨h1, h2, d + 1, ?_, ?_⟩ rfl (isPend_of (by simp [hloc]))⟩
        · rw [hmask, Nat.mod_add_mod, ← Nat.mod_add_mod, h3, Nat.mod_add_mod, Nat.add_assoc]
        · exact passed_succ h4 (by rwa [← hsl]) (by rwa [← hsl])
  | lookV k i =>
    simp only [hloc] at hA
    obtain ⟨h1, h2, h3⟩ := hA
    have hi : i < s.vals.length := by
      rw [hv]
      exact (List.getElem?_eq_some_iff.1 h3).1
    simp only [step]
    cases hvi : s.vals[i] with
    | none =>
      have hvi' : s.vals[i]? = some none := by rw [List.getElem?_eq_getElem hi, hvi]
      right
      refine ⟨by rw [hvi'], k, i, rfl, h1, h2, h3, hvi'⟩
    | some v =>
      have hvi' : s.vals[i]? = some (some v) := by rw [List.getElem?_eq_getElem hi, hvi]
      left
      rw [hvi']
      exact ⟨_, _, rfl, .found k v i h2 h1 h3 hvi' (isPend_of (by simp [hloc]))⟩

theorem init_inv (p a : Nat) : MInv p a (Config.init n
    ⟨List.replicate (2 ^ p) 0, List.replicate (2 ^ p) none, 0, a⟩) where
  len := by simp [Config.init]
  vlen := by simp [Config.init]
  ha := rfl
  path := pathOk_replicate _ _
  cnt := by
    simp only [Config.init]
    rw [occ_replicate, cnt_eq_zero (fun t => rfl)]
  loc := by simp [Config.init]
  ops := by simp [Config.init]
  vals := by
    intro i v h
    simp [Config.init, List.getElem?_replicate] at h
  init := by
    intro i k h hk
    simp [Config.init, List.getElem?_replicate] at h
    exact absurd h.2.symm hk
  lose := by simp [Config.init]
  got := by simp [Config.init]

theorem upd_cases {α : Type} {f : Fin n → α} {t u : Fin n} {x y : α}
    (h : Function.update f t x u = y) : (u = t ∧ x = y) ∨ (u ≠ t ∧ f u = y) := by
  by_cases hu : u = t
  · subst hu
    rw [Function.update_self] at h
    exact Or.inl ⟨rfl, h⟩
  · rw [Function.update_of_ne hu] at h
    exact Or.inr ⟨hu, h⟩

theorem step_inv {p a : Nat} {c c' : Config n Shared Loc MapOp MapRet}
    (h : MInv p a c) (hs : Step (obj a) Ok c c') : MInv p a c' := by
  have hpos := h.pos
  have mono : ∀ (e : List (Ev n MapOp MapRet)) {x : Ev n MapOp MapRet}, x ∈ c.hist → x ∈ c.hist ++ e :=
    fun e x hx => List.mem_append.2 (Or.inl hx)
  cases hs with
  | call t op hidle hok =>
    have hne : ∀ u A, c.th u = some A → u ≠ t := by
      rintro u A hu rfl
      rw [hidle] at hu; cases hu
    refine ⟨h.len, h.vlen, h.ha, h.path, ?_, ?_, ?_, ?_, ?_, ?_, ?_⟩
    · simp only
      rw [cnt_update_same (by rw [hidle]; cases op <;> rfl), h.cnt]
    · intro u A hu
      replace hu := upd_cases hu; rcases hu with ⟨rfl, hu⟩ | ⟨hut, hu⟩
      · injection hu with hu
        subst hu
        cases op with
        | insert k v => exact ⟨rfl, hok⟩
        | get k => exact ⟨rfl, hok, 0, rfl, fun e he => absurd he (by omega)⟩
      · exact h.loc u A hu
    · intro u A hu
      replace hu := upd_cases hu; rcases hu with ⟨rfl, hu⟩ | ⟨hut, hu⟩
      · injection hu with hu
        subst hu
        simp
      · exact mono _ (h.ops u A hu)
    · intro i v hv
      obtain ⟨k, h1, h2, t', h3⟩ := h.vals i v hv
      exact ⟨k, h1, h2, t', mono _ h3⟩
    · intro i k h1 h2 h3
      obtain ⟨u, op', v, st, hu⟩ := h.init i k h1 h2 h3
      exact ⟨u, op', v, st, by simp only [Function.update_of_ne (hne u _ hu)]; exact hu⟩
    · intro u k v b hu
      have hu : Ev.res u (.insert k v) (.bool b) ∈ c.hist := by simpa using hu
      exact h.lose u k v b hu
    · intro u k v h1 h2 hu
      rcases append_singleton_split hu with ⟨_, he⟩ | ⟨h2', he⟩
      · cases he
      · exact h.got u k v h1 h2' he
  | internal t A s' l' hth hst =>
    have hA := h.loc t A hth
    rw [← h.ha] at hA
    rcases step_cases h.len (by rw [h.ha]; exact h.path) h.vlen hA with ⟨s1, out, hs1, hcase⟩ | ⟨hs1, _, _⟩
    case inr => rw [show (obj a).step c.sh A.loc = step c.sh A.loc from rfl, hs1] at hst; cases hst
    rw [show (obj a).step c.sh A.loc = step c.sh A.loc from rfl, hs1] at hst
    simp only [Option.some.injEq, Prod.mk.injEq] at hst
    obtain ⟨rfl, rfl⟩ := hst
    have hops : ∀ l u B, Function.update c.th t (some (⟨A.op, l, A.steps + 1⟩ : Active Loc MapOp)) u = some B →
        Ev.inv u B.op ∈ c.hist := by
      intro l u B hu
      replace hu := upd_cases hu; rcases hu with ⟨rfl, hu⟩ | ⟨hut, hu⟩
      · injection hu with hu
        subst hu
        exact h.ops u A hth
      · exact h.ops u B hu
    cases hcase with
    | move _ hl' hnp hnp2 =>
      refine ⟨h.len, h.vlen, h.ha, h.path, ?_, ?_, hops _, h.vals, ?_, h.lose, h.got⟩
      · simp only
        rw [cnt_update_same (by rw [hth, hnp, hnp2]), h.cnt]
      · intro u B hu
        replace hu := upd_cases hu; rcases hu with ⟨rfl, hu⟩ | ⟨hut, hu⟩
        · injection hu with hu
          subst hu
          rw [← h.ha]; exact hl'
        · exact h.loc u B hu
      · intro i k h1 h2 h3
        obtain ⟨u, op', v, st, hu⟩ := h.init i k h1 h2 h3
        refine ⟨u, op', v, st, ?_⟩
        simp only
        rw [Function.update_of_ne, hu]
        rintro rfl
        rw [hth] at hu
        injection hu with hu
        rw [hu] at hnp2
        cases hnp2
    | cas k v d hk hop h0 hp hnp =>
      have hlt : (hash64 c.sh.a k + d) % c.sh.keys.length < c.sh.keys.length := Nat.mod_lt _ hpos
      have hz : c.sh.keys[(hash64 c.sh.a k + d) % c.sh.keys.length]? = some 0 := by
        rw [List.getElem?_eq_getElem hlt, ← sl_getElem _ _ hlt, sl_mod, h0]
      have hpath := h.path
      rw [← h.ha] at hpath
      refine ⟨by simpa using h.len, by simpa using h.vlen, h.ha, ?_, ?_, ?_, hops _, ?_, ?_, ?_, h.got⟩
      · simp only
        rw [← h.ha]
        exact PathOk.set hpos hpath h0 hp
      · simp only
        rw [occ_set hlt hz hk, cnt_update_add (by rw [hth]; exact hnp) rfl, ← h.cnt]
        omega
      · intro u B hu
        replace hu := upd_cases hu; rcases hu with ⟨rfl, hu⟩ | ⟨hut, hu⟩
        · injection hu with hu
          subst hu
          exact ⟨hop, hk, List.getElem?_set_self hlt⟩
        · exact (h.loc u B hu).set hpos h0
      · intro i w hw
        obtain ⟨x, h1, h2, h3⟩ := h.vals i w hw
        refine ⟨x, ?_, h2, h3⟩
        simp only
        rw [List.getElem?_set_ne, h1]
        rintro rfl
        rw [hz] at h1
        injection h1 with h1
        exact h2 h1.symm
      · intro i x h1 h2 h3
        simp only at h1 h3 ⊢
        by_cases hi : (hash64 c.sh.a k + d) % c.sh.keys.length = i
        · subst hi
          rw [List.getElem?_set_self hlt] at h1
          injection h1 with h1
          subst h1
          exact ⟨t, A.op, v, A.steps + 1, by rw [Function.update_self]⟩
        · rw [List.getElem?_set_ne hi] at h1
          obtain ⟨u, op', w, st, hu⟩ := h.init i x h1 h2 h3
          refine ⟨u, op', w, st, ?_⟩
          rw [Function.update_of_ne, hu]
          rintro rfl
          rw [hth] at hu
          injection hu with hu
          rw [hu] at hnp
          cases hnp
      · intro u x w b hu
        obtain ⟨h1, h2⟩ := h.lose u x w b hu
        exact ⟨h1, (mem_set_free hlt hz h1).2 (Or.inl h2)⟩
    | storeWon k v i hk hop hloc hki =>
      have hi : i < c.sh.vals.length := by
        rw [h.vlen]; exact (List.getElem?_eq_some_iff.1 hki).1
      refine ⟨h.len, by simpa using h.vlen, h.ha, h.path, ?_, ?_, hops _, ?_, ?_, h.lose, h.got⟩
      · simp only
        rw [cnt_update_same, h.cnt]
        rw [hth]
        obtain ⟨op, l, st⟩ := A
        simp only at hloc
        subst hloc
        rfl
      · intro u B hu
        replace hu := upd_cases hu; rcases hu with ⟨rfl, hu⟩ | ⟨hut, hu⟩
        · injection hu with hu
          subst hu
          exact ⟨hop, hk, List.mem_of_getElem? hki⟩
        · exact h.loc u B hu
      · intro j w hw
        simp only at hw
        rw [List.getElem?_set] at hw
        split at hw
        · rename_i hij
          subst hij
          simp only [Option.some.injEq] at hw
          subst hw
          exact ⟨k, hki, hk, t, by rw [← hop]; exact h.ops t A hth⟩
        · exact h.vals j w hw
      · intro j x h1 h2 h3
        simp only at h1 h3 ⊢
        rw [List.getElem?_set] at h3
        split at h3
        · rename_i hij
          simp at h3
        · rename_i hij
          obtain ⟨u, op', w, st, hu⟩ := h.init j x h1 h2 h3
          refine ⟨u, op', w, st, ?_⟩
          rw [Function.update_of_ne, hu]
          rintro rfl
          rw [hth] at hu
          injection hu with hu
          rw [hu] at hloc
          simp only [Loc.store.injEq] at hloc
          exact hij hloc.2.2.1.symm
  | ret t A s' r hth hst =>
    have hA := h.loc t A hth
    rw [← h.ha] at hA
    rcases step_cases h.len (by rw [h.ha]; exact h.path) h.vlen hA with ⟨s1, out, hs1, hcase⟩ | ⟨hs1, _, _⟩
    case inr => rw [show (obj a).step c.sh A.loc = step c.sh A.loc from rfl, hs1] at hst; cases hst
    rw [show (obj a).step c.sh A.loc = step c.sh A.loc from rfl, hs1] at hst
    simp only [Option.some.injEq, Prod.mk.injEq] at hst
    obtain ⟨rfl, rfl⟩ := hst
    have hloc' : ∀ u B, Function.update c.th t none u = some B → LocOk a c.sh.keys B := by
      intro u B hu
      replace hu := upd_cases hu; rcases hu with ⟨rfl, hu⟩ | ⟨hut, hu⟩
      · cases hu
      · exact h.loc u B hu
    have hops : ∀ e u B, Function.update c.th t none u = some B → Ev.inv u B.op ∈ c.hist ++ e := by
      intro e u B hu
      replace hu := upd_cases hu; rcases hu with ⟨rfl, hu⟩ | ⟨hut, hu⟩
      · cases hu
      · exact mono _ (h.ops u B hu)
    have hvals : ∀ e (i v : Nat), c.sh.vals[i]? = some (some v) →
        ∃ k, c.sh.keys[i]? = some k ∧ k ≠ 0 ∧ ∃ t, Ev.inv t (.insert k v) ∈ c.hist ++ e := by
      intro e i v hv
      obtain ⟨k, h1, h2, t', h3⟩ := h.vals i v hv
      exact ⟨k, h1, h2, t', mono _ h3⟩
    have hinit : isPend (some A) = false → ∀ (i k : Nat), c.sh.keys[i]? = some k → k ≠ 0 →
        c.sh.vals[i]? = some none →
        ∃ u op v st, Function.update c.th t none u = some ⟨op, .store k v i true, st⟩ := by
      intro hnp i k h1 h2 h3
      obtain ⟨u, op', v, st, hu⟩ := h.init i k h1 h2 h3
      refine ⟨u, op', v, st, ?_⟩
      rw [Function.update_of_ne, hu]
      rintro rfl
      rw [hth] at hu
      injection hu with hu
      rw [hu] at hnp
      cases hnp
    have hgot : (∀ k v, A.op = .get k → r = .val v → GotOk k v c.hist) →
        ∀ u k v h1 h2, c.hist ++ [.res t A.op r] = h1 ++ Ev.res u (.get k) (.val v) :: h2 →
          GotOk k v h1 := by
      intro hnew u k v h1 h2 hu
      rcases append_singleton_split hu with ⟨hh, he⟩ | ⟨h2', he⟩
      · simp only [Ev.res.injEq] at he
        rw [hh]
        exact hnew k v he.2.1.symm he.2.2.symm
      · exact h.got u k v h1 h2' he
    have hlose : (∀ k v b, A.op = .insert k v → r = .bool b → k ≠ 0 ∧ k ∈ c.sh.keys) →
        ∀ u k v b, Ev.res u (.insert k v) (.bool b) ∈ c.hist ++ [.res t A.op r] →
          k ≠ 0 ∧ k ∈ c.sh.keys := by
      intro hnew u k v b hu
      rcases List.mem_append.1 hu with hu | hu
      · exact h.lose u k v b hu
      · simp only [List.mem_singleton, Ev.res.injEq] at hu
        exact hnew k v b hu.2.1.symm hu.2.2.symm
    cases hcase with
    | full k v hop hnp =>
      refine ⟨h.len, h.vlen, h.ha, h.path, ?_, hloc', hops _, hvals _, hinit hnp, hlose (by simp), hgot (by simp)⟩
      simp only
      rw [cnt_update_same (by rw [hth, hnp]; rfl), h.cnt]
    | absent k hop hk hnp =>
      refine ⟨h.len, h.vlen, h.ha, h.path, ?_, hloc', hops _, hvals _, hinit hnp, hlose (by simp), hgot ?_⟩
      · simp only
        rw [cnt_update_same (by rw [hth, hnp]; rfl), h.cnt]
      · intro k' v hk' hv
        injection hv with hv
        rw [hop] at hk'
        injection hk' with hk'
        subst hk'
        exact Or.inr ⟨hv.symm, fun u w b hu => hk (h.lose u k w b hu).2⟩
    | found k v i hk hop hki hvi hnp =>
      refine ⟨h.len, h.vlen, h.ha, h.path, ?_, hloc', hops _, hvals _, hinit hnp, hlose (by simp), hgot ?_⟩
      · simp only
        rw [cnt_update_same (by rw [hth, hnp]; rfl), h.cnt]
      · intro k' w hk' hw
        injection hw with hw
        subst hw
        rw [hop] at hk'
        injection hk' with hk'
        subst hk'
        obtain ⟨x, h1, h2, h3⟩ := h.vals i v hvi
        rw [hki] at h1
        injection h1 with h1
        rw [h1]
        exact Or.inl h3
    | incr k v hop hloc =>
      have hp : isPend (c.th t) = true := by
        rw [hth]
        obtain ⟨op, l, st⟩ := A
        simp only at hloc
        subst hloc
        rfl
      refine ⟨h.len, h.vlen, h.ha, h.path, ?_, hloc', hops _, hvals _, ?_, hlose ?_, hgot (by simp)⟩
      · simp only
        have := cnt_update_sub (x := none) hp rfl
        have := h.cnt
        omega
      · intro i x h1 h2 h3
        obtain ⟨u, op', w, st, hu⟩ := h.init i x h1 h2 h3
        refine ⟨u, op', w, st, ?_⟩
        simp only
        rw [Function.update_of_ne, hu]
        rintro rfl
        rw [hth] at hu
        injection hu with hu
        rw [hu] at hloc
        cases hloc
      · intro k' v' b hk' _
        rw [hop] at hk'
        injection hk' with hk'
        subst hk'
        rw [LocOk, hloc] at hA
        exact hA.2
    | storeLost k v i hk hop hloc hki =>
      have hi : i < c.sh.vals.length := by
        rw [h.vlen]; exact (List.getElem?_eq_some_iff.1 hki).1
      have hnp : isPend (some A) = false := isPend_of (by simp [hloc])
      refine ⟨h.len, by simpa using h.vlen, h.ha, h.path, ?_, hloc', hops _, ?_, ?_, hlose ?_, hgot (by simp)⟩
      · simp only
        rw [cnt_update_same (by rw [hth, hnp]; rfl), h.cnt]
      · intro j w hw
        simp only at hw
        rw [List.getElem?_set] at hw
        split at hw
        · rename_i hij
          subst hij
          simp only [Option.some.injEq] at hw
          subst hw
          exact ⟨k, hki, hk, t, by rw [← hop]; exact mono _ (h.ops t A hth)⟩
        · exact hvals _ j w hw
      · intro j x h1 h2 h3
        simp only at h1 h3
        rw [List.getElem?_set] at h3
        split at h3
        · rename_i hij
          simp at h3
        · exact hinit hnp j x h1 h2 h3
      · intro k' v' b hk' _
        rw [hop] at hk'
        injection hk' with hk'
        subst hk'
        exact ⟨hk, List.mem_of_getElem? hki⟩

theorem reach_inv {p a : Nat} {c : Config n Shared Loc MapOp MapRet}
    (h : Reach (obj a) Ok ⟨List.replicate (2 ^ p) 0, List.replicate (2 ^ p) none, 0, a⟩ c) :
    MInv p a c :=
  h.induct (init_inv p a) (fun _ _ _ hi hs => step_inv hi hs)

end ConcMap
end Verif
