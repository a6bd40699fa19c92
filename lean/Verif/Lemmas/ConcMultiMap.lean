import Verif.Model.ConcMultiMap
import Verif.Lemmas.ConcSet
import Verif.Lemmas.LpMultiMap
import Verif.Lemmas.ConcMap

/-!
# Invariants of the lock-free multimap
-/
namespace Verif
namespace ConcMultiMap
open Conc
open ConcSet (Passed passed_succ)
open LpMultiMap (MPath)
open ConcMap (upd_cases append_singleton_split)

/-- Key of an operation. -/
def MOp.key : MOp → Nat
  | .insert k _ => k
  | .contains k => k

/-- Precondition of the operations: the key is not zero. -/
def Ok (op : MOp) : Prop := op.key ≠ 0

/-- The pair acknowledged by an event: `insert(k, v)` returned true. -/
def ackOf {n : Nat} : Ev n MOp MRet → Option (Nat × Option Nat)
  | .res _ (.insert k v) (.bool true) => some (k, some v)
  | _ => none

/-- All pairs whose insertion returned true. -/
def acked {n : Nat} (h : List (Ev n MOp MRet)) : List (Nat × Option Nat) := h.filterMap ackOf

/-- All slots up to (excluding) distance `d` from `h` are occupied. -/
def Full (keys : List Nat) (h d : Nat) : Prop := ∀ e, e < d → sl keys (h + e) ≠ 0

theorem full_succ {keys : List Nat} {h d : Nat} (hp : Full keys h d) (h0 : sl keys (h + d) ≠ 0) :
    Full keys h (d + 1) := by
  intro e he
  rcases Nat.lt_succ_iff_lt_or_eq.1 he with he | rfl
  · exact hp e he
  · exact h0

/-- Local invariant of a thread. -/
def LocOk (a : Nat) (keys : List Nat) (vals : List (Option Nat)) (A : Active Loc MOp) : Prop :=
  match A.loc with
  | .check k v => A.op = .insert k v ∧ k ≠ 0
  | .probe k v idx => A.op = .insert k v ∧ k ≠ 0 ∧
      ∃ d, idx % keys.length = (hash64 a k + d) % keys.length ∧ Full keys (hash64 a k) d
  | .cas k v i => A.op = .insert k v ∧ k ≠ 0 ∧
      ∃ d, i = (hash64 a k + d) % keys.length ∧ Full keys (hash64 a k) d
  | .store k v i => A.op = .insert k v ∧ k ≠ 0 ∧ keys[i]? = some k ∧ vals[i]? = some none
  | .incr k v => A.op = .insert k v ∧ k ≠ 0 ∧ k ∈ keys
  | .look k idx => A.op = .contains k ∧ k ≠ 0 ∧
      ∃ d, idx % keys.length = (hash64 a k + d) % keys.length ∧ Passed keys (hash64 a k) k d

/-- Between the successful CAS and the increment of the counter. -/
def isPend : Option (Active Loc MOp) → Bool
  | some ⟨_, .store _ _ _, _⟩ => true
  | some ⟨_, .incr _ _, _⟩ => true
  | _ => false

/-- The value of the pair has been stored, the counter has not been incremented yet. -/
def isIncr (q : Nat × Option Nat) : Option (Active Loc MOp) → Bool
  | some ⟨_, .incr k v, _⟩ => decide (q = (k, some v))
  | _ => false

structure MInv {n : Nat} (p a : Nat) (c : Config n Shared Loc MOp MRet) : Prop where
  len : c.sh.keys.length = 2 ^ p
  vlen : c.sh.vals.length = c.sh.keys.length
  ha : c.sh.a = a
  path : MPath (hash64 a) c.sh.keys
  cnt : c.sh.items + Conc.cnt isPend c.th = occ c.sh.keys
  loc : ∀ t A, c.th t = some A → LocOk a c.sh.keys c.sh.vals A
  own : ∀ t u op op' k k' v v' i st st', c.th t = some ⟨op, .store k v i, st⟩ →
    c.th u = some ⟨op', .store k' v' i, st'⟩ → t = u
  zero : ∀ (i v : Nat), c.sh.vals[i]? = some (some v) → c.sh.keys[i]? ≠ some 0
  init : ∀ (i k : Nat), c.sh.keys[i]? = some k → k ≠ 0 → c.sh.vals[i]? = some none →
    ∃ t op v st, c.th t = some ⟨op, .store k v i, st⟩
  stored : ∀ k v : Nat, (c.sh.keys.zip c.sh.vals).count (k, some v) =
    (acked c.hist).count (k, some v) + Conc.cnt (isIncr (k, some v)) c.th
  ret : ∀ t k v b, Ev.res t (.insert k v) (.bool b) ∈ c.hist → k ≠ 0 ∧ k ∈ c.sh.keys ∧ b = true
  ack : ∀ q ∈ acked c.hist, q.1 ≠ 0
  look : ∀ t k b h1 h2, c.hist = h1 ++ Ev.res t (.contains k) (.bool b) :: h2 →
    (b = true → ∃ t' v, Ev.inv t' (.insert k v) ∈ h1) ∧
    (b = false → ∀ t' v b', Ev.res t' (.insert k v) (.bool b') ∉ h1)
  ops : ∀ t A, c.th t = some A → Ev.inv t A.op ∈ c.hist
  orig : ∀ k ∈ c.sh.keys, k ≠ 0 → ∃ t v, Ev.inv t (.insert k v) ∈ c.hist

variable {n : Nat}

theorem MInv.pos {p a : Nat} {c : Config n Shared Loc MOp MRet} (h : MInv p a c) :
    0 < c.sh.keys.length := by rw [h.len]; exact Nat.pow_pos (by omega)

theorem getElem?_set_keep {keys : List Nat} (hn : 0 < keys.length) {i k' : Nat}
    (h0 : sl keys i = 0) (j k : Nat) (hk : k ≠ 0) (hj : keys[j]? = some k) :
    (keys.set (i % keys.length) k')[j]? = some k := by
  rw [List.getElem?_set_ne, hj]
  rintro rfl
  have hi : i % keys.length < keys.length := Nat.mod_lt _ hn
  rw [List.getElem?_eq_getElem hi, ← sl_getElem _ _ hi, sl_mod, h0] at hj
  injection hj with hj
  exact hk hj.symm

theorem Full.set {keys : List Nat} (hn : 0 < keys.length) {i k' h d : Nat}
    (h0 : sl keys i = 0) (hk' : k' ≠ 0) (hf : Full keys h d) :
    Full (keys.set (i % keys.length) k') h d := by
  intro e he
  rw [sl_set hn]
  split
  · exact hk'
  · exact hf e he

theorem LocOk.set {a : Nat} {keys : List Nat} {vals : List (Option Nat)} (hn : 0 < keys.length)
    {i k' : Nat} (h0 : sl keys i = 0) (hk' : k' ≠ 0)
    {A : Active Loc MOp} (h : LocOk a keys vals A) :
    LocOk a (keys.set (i % keys.length) k') vals A := by
  have hget := getElem?_set_keep (k' := k') hn h0
  unfold LocOk at *
  cases hl : A.loc <;> simp only [hl, List.length_set] at *
  · exact h
  · obtain ⟨h1, h2, d, h3, h4⟩ := h
    exact ⟨h1, h2, d, h3, h4.set hn h0 hk'⟩
  · obtain ⟨h1, h2, d, h3, h4⟩ := h
    exact ⟨h1, h2, d, h3, h4.set hn h0 hk'⟩
  · exact ⟨h.1, h.2.1, hget _ _ h.2.1 h.2.2.1, h.2.2.2⟩
  · refine ⟨h.1, h.2.1, ?_⟩
    obtain ⟨j, hj, hjk⟩ := List.getElem_of_mem h.2.2
    exact List.mem_of_getElem? (hget j _ h.2.1 (by rw [List.getElem?_eq_getElem hj, hjk]))
  · obtain ⟨h1, h2, d, h3, h4⟩ := h
    exact ⟨h1, h2, d, h3, h4.set hn h0⟩

theorem MPath.not_mem {hash : Nat → Nat} {arr : List Nat} (hp : MPath hash arr) {k d : Nat}
    (hk : k ≠ 0) (h0 : sl arr (hash k + d) = 0)
    (hb : ∀ e, e < d → sl arr (hash k + e) ≠ 0 ∧ sl arr (hash k + e) ≠ k) : k ∉ arr := by
  intro hm
  obtain ⟨i, hi, he⟩ := (mem_iff_sl k).1 hm
  obtain ⟨d', h1, h2⟩ := hp i hi (by rw [he]; exact hk)
  rw [he] at h1 h2
  have h3 : sl arr (hash k + d') = k := by rw [← sl_mod, h1, he]
  rcases Nat.lt_trichotomy d d' with hd | hd | hd
  · exact h2 d hd h0
  · subst hd; rw [h0] at h3; exact hk h3.symm
  · exact (hb d' hd).2 h3

/-- What a step of a thread can do. -/
inductive StepCase (s : Shared) (A : Active Loc MOp) : Shared → (Loc ⊕ MRet) → Prop where
  | full : isPend (some A) = false → StepCase s A s (.inr .full)
  | move (l' : Loc) : LocOk s.a s.keys s.vals ⟨A.op, l', A.steps + 1⟩ →
      isPend (some ⟨A.op, l', A.steps + 1⟩) = false → isPend (some A) = false →
      StepCase s A s (.inl l')
  | cas (k v d : Nat) : k ≠ 0 → A.op = .insert k v → sl s.keys (hash64 s.a k + d) = 0 →
      Full s.keys (hash64 s.a k) d → isPend (some A) = false →
      StepCase s A { s with keys := s.keys.set ((hash64 s.a k + d) % s.keys.length) k }
        (.inl (.store k v ((hash64 s.a k + d) % s.keys.length)))
  | store (k v i : Nat) : k ≠ 0 → A.op = .insert k v → A.loc = .store k v i →
      s.keys[i]? = some k → s.vals[i]? = some none →
      StepCase s A { s with vals := s.vals.set i (some v) } (.inl (.incr k v))
  | incr (k v : Nat) : k ≠ 0 → k ∈ s.keys → A.op = .insert k v → A.loc = .incr k v →
      StepCase s A { s with items := s.items + 1 } (.inr (.bool true))
  | absent (k : Nat) : A.op = .contains k → k ∉ s.keys → isPend (some A) = false →
      StepCase s A s (.inr (.bool false))
  | found (k : Nat) : k ≠ 0 → A.op = .contains k → k ∈ s.keys → isPend (some A) = false →
      StepCase s A s (.inr (.bool true))

theorem isPend_of {A : Active Loc MOp}
    (h : (∀ k v i, A.loc ≠ .store k v i) ∧ ∀ k v, A.loc ≠ .incr k v) :
    isPend (some A) = false := by
  obtain ⟨op, l, st⟩ := A
  cases l with
  | store k v i => exact absurd rfl (h.1 k v i)
  | incr k v => exact absurd rfl (h.2 k v)
  | _ => rfl

theorem isIncr_of {o : Option (Active Loc MOp)} (h : isPend o = false) (q : Nat × Option Nat) :
    isIncr q o = false := by
  cases o with
  | none => rfl
  | some A =>
    obtain ⟨op, l, st⟩ := A
    cases l <;> first | rfl | cases h

theorem step_cases {s : Shared} {p : Nat} (hl : s.keys.length = 2 ^ p)
    (hpath : MPath (hash64 s.a) s.keys)
    (hv : s.vals.length = s.keys.length) {A : Active Loc MOp} (hA : LocOk s.a s.keys s.vals A) :
    ∃ s' out, step s A.loc = some (s', out) ∧ StepCase s A s' out := by
  have hn : 0 < s.keys.length := by rw [hl]; exact Nat.pow_pos (by omega)
  unfold LocOk at hA
  cases hloc : A.loc with
  | check k v =>
    simp only [hloc] at hA
    simp only [step]
    split
    · exact ⟨_, _, rfl, .full (isPend_of (by simp [hloc]))⟩
    · exact ⟨_, _, rfl, .move _ ⟨hA.1, hA.2, 0, rfl, fun e he => absurd he (by omega)⟩ rfl
        (isPend_of (by simp [hloc]))⟩
  | probe k v idx =>
    simp only [hloc] at hA
    obtain ⟨h1, h2, d, h3, h4⟩ := hA
    simp only [step]
    have hsl : sl s.keys idx = sl s.keys (hash64 s.a k + d) := by rw [← sl_mod, h3, sl_mod]
    have hget := getElem?_mask hl idx
    have hmask : maskIdx s.keys.length idx = idx % s.keys.length := by rw [hl, maskIdx_pow]
    rw [hget]
    simp only
    split
    · rename_i h0
      refine ⟨_, _, rfl, .move _ ⟨h1, h2, d + 1, ?_, ?_⟩ rfl (isPend_of (by simp [hloc]))⟩
      · rw [hmask, Nat.mod_add_mod, ← Nat.mod_add_mod, h3, Nat.mod_add_mod, Nat.add_assoc]
      · exact full_succ h4 (by rwa [← hsl])
    · exact ⟨_, _, rfl, .move _ ⟨h1, h2, d, by rw [hmask, h3], h4⟩ rfl
          (isPend_of (by simp [hloc]))⟩
  | cas k v i =>
    simp only [hloc] at hA
    obtain ⟨h1, h2, d, h3, h4⟩ := hA
    have hi : i < s.keys.length := by rw [h3]; exact Nat.mod_lt _ hn
    have hsl : s.keys[i] = sl s.keys (hash64 s.a k + d) := by
      rw [← sl_getElem _ _ hi, h3, sl_mod]
    simp only [step]
    rw [List.getElem?_eq_getElem hi]
    simp only
    split
    · rename_i h0
      rw [hsl] at h0
      refine ⟨_, _, rfl, ?_⟩
      rw [h3]
      exact .cas k v d h2 h1 h0 h4 (isPend_of (by simp [hloc]))
    · rename_i h0
      refine ⟨_, _, rfl, .move _ ⟨h1, h2, d + 1, ?_, ?_⟩ rfl (isPend_of (by simp [hloc]))⟩
      · rw [h3, Nat.mod_add_mod, Nat.add_assoc]
      · exact full_succ h4 (by rwa [← hsl])
  | store k v i =>
    simp only [hloc] at hA
    obtain ⟨h1, h2, h3, h4⟩ := hA
    have hi : i < s.vals.length := (List.getElem?_eq_some_iff.1 h4).1
    simp only [step, hi, if_true]
    exact ⟨_, _, rfl, .store k v i h2 h1 hloc h3 h4⟩
  | incr k v =>
    simp only [hloc] at hA
    exact ⟨_, _, rfl, .incr k v hA.2.1 hA.2.2 hA.1 hloc⟩
  | look k idx =>
    simp only [hloc] at hA
    obtain ⟨h1, h2, d, h3, h4⟩ := hA
    simp only [step]
    have hsl : sl s.keys idx = sl s.keys (hash64 s.a k + d) := by rw [← sl_mod, h3, sl_mod]
    have hget := getElem?_mask hl idx
    have hmask : maskIdx s.keys.length idx = idx % s.keys.length := by rw [hl, maskIdx_pow]
    rw [hget]
    simp only
    split
    · rename_i hk
      exact ⟨_, _, rfl, .found k h2 h1 (by rw [← hk]; exact sl_mem hn _)
        (isPend_of (by simp [hloc]))⟩
    · rename_i hk
      split
      · rename_i h0
        exact ⟨_, _, rfl, .absent k h1 (MPath.not_mem hpath h2 (by rwa [← hsl]) h4)
          (isPend_of (by simp [hloc]))⟩
      · rename_i h0
        refine ⟨_, _, rfl, .move _ ⟨h1, h2, d + 1, ?_, ?_⟩ rfl (isPend_of (by simp [hloc]))⟩
        · rw [hmask, Nat.mod_add_mod, ← Nat.mod_add_mod, h3, Nat.mod_add_mod, Nat.add_assoc]
        · exact passed_succ h4 (by rwa [← hsl]) (by rwa [← hsl])

theorem zip_set_left {α β : Type} : ∀ (l : List α) (m : List β) (i : Nat) (x : α) (y : β),
    m[i]? = some y → (l.set i x).zip m = (l.zip m).set i (x, y)
  | [], m, i, x, y, _ => by simp
  | a :: l, [], i, x, y, h => by simp at h
  | a :: l, b :: m, 0, x, y, h => by
    simp at h
    subst h
    simp
  | a :: l, b :: m, i + 1, x, y, h => by
    simp only [List.set_cons_succ, List.zip_cons_cons, List.cons.injEq, true_and]
    exact zip_set_left l m i x y (by simpa using h)

theorem zip_set_right {α β : Type} : ∀ (l : List α) (m : List β) (i : Nat) (x : α) (y : β),
    l[i]? = some x → l.zip (m.set i y) = (l.zip m).set i (x, y)
  | l, [], i, x, y, _ => by simp
  | [], b :: m, i, x, y, h => by simp at h
  | a :: l, b :: m, 0, x, y, h => by
    simp at h
    subst h
    simp
  | a :: l, b :: m, i + 1, x, y, h => by
    simp only [List.set_cons_succ, List.zip_cons_cons, List.cons.injEq, true_and]
    exact zip_set_right l m i x y (by simpa using h)

theorem count_set_ne {α : Type} [BEq α] [LawfulBEq α] : ∀ (l : List α) (i : Nat) (x y z : α),
    l[i]? = some y → y ≠ z → (l.set i x).count z = l.count z + if x == z then 1 else 0
  | [], i, x, y, z, h, _ => by simp at h
  | a :: l, 0, x, y, z, h, hy => by
    simp at h
    subst h
    simp only [List.set_cons_zero, List.count_cons]
    simp [hy]
  | a :: l, i + 1, x, y, z, h, hy => by
    simp only [List.set_cons_succ, List.count_cons]
    rw [count_set_ne l i x y z (by simpa using h) hy]
    omega

theorem getElem?_zip_some {α β : Type} {l : List α} {m : List β} {i : Nat} {x : α} {y : β}
    (h1 : l[i]? = some x) (h2 : m[i]? = some y) : (l.zip m)[i]? = some (x, y) := by
  rw [List.getElem?_zip_eq_some]
  exact ⟨h1, h2⟩

theorem init_inv (p a : Nat) : MInv p a (Config.init n
    ⟨List.replicate (2 ^ p) 0, List.replicate (2 ^ p) none, 0, a⟩) where
  len := by simp [Config.init]
  vlen := by simp [Config.init]
  ha := rfl
  path := by
    intro i hi h
    exfalso; apply h
    have := (List.mem_replicate.1 (sl_mem (arr := List.replicate (2 ^ p) 0)
      (by simp) i)).2
    exact this
  cnt := by
    simp only [Config.init]
    rw [occ_replicate, cnt_eq_zero (fun t => rfl)]
  loc := by simp [Config.init]
  own := by simp [Config.init]
  zero := by
    intro i v h
    simp [Config.init, List.getElem?_replicate] at h
  init := by
    intro i k h hk
    simp [Config.init, List.getElem?_replicate] at h
    exact absurd h.2.symm hk
  stored := by
    intro k v
    simp only [Config.init]
    rw [cnt_eq_zero (fun t => rfl)]
    simp [acked, List.zip_replicate', List.count_replicate]
  ret := by simp [Config.init]
  ack := by simp [Config.init, acked]
  look := by simp [Config.init]
  ops := by simp [Config.init]
  orig := by
    intro k hk h0
    exact absurd (List.mem_replicate.1 hk).2 h0

theorem step_inv {p a : Nat} {c c' : Config n Shared Loc MOp MRet}
    (h : MInv p a c) (hs : Step (obj a) Ok c c') : MInv p a c' := by
  have hpos := h.pos
  have mono : ∀ (e : List (Ev n MOp MRet)) {x : Ev n MOp MRet}, x ∈ c.hist → x ∈ c.hist ++ e :=
    fun e x hx => List.mem_append.2 (Or.inl hx)
  cases hs with
  | call t op hidle hok =>
    have hne : ∀ u A, c.th u = some A → u ≠ t := by
      rintro u A hu rfl
      rw [hidle] at hu; cases hu
    have hst : ∀ u op' k v i st, Function.update c.th t (some ⟨op, (obj a).start op, 0⟩) u =
        some ⟨op', .store k v i, st⟩ → c.th u = some ⟨op', .store k v i, st⟩ := by
      intro u op' k v i st hu
      replace hu := upd_cases hu
      rcases hu with ⟨rfl, hu⟩ | ⟨hut, hu⟩
      · cases op <;> cases hu
      · exact hu
    have hack : acked (c.hist ++ [.inv t op]) = acked c.hist := by simp [acked, ackOf]
    refine ⟨h.len, h.vlen, h.ha, h.path, ?_, ?_, ?_, h.zero, ?_, ?_, ?_, ?_, ?_, ?_, ?_⟩
    · simp only
      rw [cnt_update_same (by rw [hidle]; cases op <;> rfl), h.cnt]
    · intro u A hu
      replace hu := upd_cases hu
      rcases hu with ⟨rfl, hu⟩ | ⟨hut, hu⟩
      · injection hu with hu
        subst hu
        cases op with
        | insert k v => exact ⟨rfl, hok⟩
        | contains k => exact ⟨rfl, hok, 0, rfl, fun e he => absurd he (by omega)⟩
      · exact h.loc u A hu
    · intro u w op1 op2 k k' v v' i st st' h1 h2
      exact h.own u w _ _ _ _ _ _ _ _ _ (hst _ _ _ _ _ _ h1) (hst _ _ _ _ _ _ h2)
    · intro i k h1 h2 h3
      obtain ⟨u, op', v, st, hu⟩ := h.init i k h1 h2 h3
      exact ⟨u, op', v, st, by simp only [Function.update_of_ne (hne u _ hu)]; exact hu⟩
    · intro k v
      simp only
      rw [hack, cnt_update_same (by rw [hidle]; cases op <;> rfl), h.stored]
    · intro u k v b hu
      have hu : Ev.res u (.insert k v) (.bool b) ∈ c.hist := by simpa using hu
      exact h.ret u k v b hu
    · simp only
      rw [hack]
      exact h.ack
    · intro u k v h1 h2 hu
      rcases append_singleton_split hu with ⟨_, he⟩ | ⟨h2', he⟩
      · cases he
      · exact h.look u k v h1 h2' he
    · intro u A hu
      replace hu := upd_cases hu
      rcases hu with ⟨rfl, hu⟩ | ⟨hut, hu⟩
      · injection hu with hu
        subst hu
        simp
      · exact mono _ (h.ops u A hu)
    · intro k hk h0
      obtain ⟨u, v, hu⟩ := h.orig k hk h0
      exact ⟨u, v, mono _ hu⟩
  | internal t A s' l' hth hst =>
    have hA := h.loc t A hth
    rw [← h.ha] at hA
    obtain ⟨s1, out, hs1, hcase⟩ := step_cases h.len (by rw [h.ha]; exact h.path) h.vlen hA
    rw [show (obj a).step c.sh A.loc = step c.sh A.loc from rfl, hs1] at hst
    simp only [Option.some.injEq, Prod.mk.injEq] at hst
    obtain ⟨rfl, rfl⟩ := hst
    have hops : ∀ l u B, Function.update c.th t (some (⟨A.op, l, A.steps + 1⟩ : Active Loc MOp)) u = some B →
        Ev.inv u B.op ∈ c.hist := by
      intro l u B hu
      replace hu := upd_cases hu
      rcases hu with ⟨rfl, hu⟩ | ⟨hut, hu⟩
      · injection hu with hu
        subst hu
        exact h.ops u A hth
      · exact h.ops u B hu
    cases hcase with
    | move _ hl' hnp hnp2 =>
      have hst : ∀ u op' k v i st, Function.update c.th t (some ⟨A.op, l', A.steps + 1⟩) u =
          some ⟨op', .store k v i, st⟩ → c.th u = some ⟨op', .store k v i, st⟩ := by
        intro u op' k v i st hu
        replace hu := upd_cases hu
        rcases hu with ⟨rfl, hu⟩ | ⟨hut, hu⟩
        · rw [hu] at hnp
          cases hnp
        · exact hu
      refine ⟨h.len, h.vlen, h.ha, h.path, ?_, ?_, ?_, h.zero, ?_, ?_, h.ret, h.ack, h.look,
        hops _, h.orig⟩
      · simp only
        rw [cnt_update_same (by rw [hth, hnp, hnp2]), h.cnt]
      · intro u B hu
        replace hu := upd_cases hu
        rcases hu with ⟨rfl, hu⟩ | ⟨hut, hu⟩
        · injection hu with hu
          subst hu
          rw [← h.ha]; exact hl'
        · exact h.loc u B hu
      · intro u w op1 op2 k k' v v' i st st' h1 h2
        exact h.own u w _ _ _ _ _ _ _ _ _ (hst _ _ _ _ _ _ h1) (hst _ _ _ _ _ _ h2)
      · intro i k h1 h2 h3
        obtain ⟨u, op', v, st, hu⟩ := h.init i k h1 h2 h3
        refine ⟨u, op', v, st, ?_⟩
        simp only
        rw [Function.update_of_ne, hu]
        rintro rfl
        rw [hth] at hu
        rw [hu] at hnp2
        cases hnp2
      · intro k v
        simp only
        rw [cnt_update_same, h.stored]
        rw [hth, isIncr_of hnp, isIncr_of hnp2]
    | cas k v d hk hop h0 hp hnp =>
      have hlt : (hash64 c.sh.a k + d) % c.sh.keys.length < c.sh.keys.length := Nat.mod_lt _ hpos
      have hz : c.sh.keys[(hash64 c.sh.a k + d) % c.sh.keys.length]? = some 0 := by
        rw [List.getElem?_eq_getElem hlt, ← sl_getElem _ _ hlt, sl_mod, h0]
      have hvn : c.sh.vals[(hash64 c.sh.a k + d) % c.sh.keys.length]? = some none := by
        have hlt' := hlt
        rw [← h.vlen] at hlt'
        rw [← h.vlen] at hz ⊢
        cases hv : c.sh.vals[(hash64 c.sh.a k + d) % c.sh.vals.length] with
        | none => rw [List.getElem?_eq_getElem hlt', hv]
        | some w => exact absurd hz (h.zero _ w (by rw [List.getElem?_eq_getElem hlt', hv]))
      have hpath := h.path
      rw [← h.ha] at hpath
      refine ⟨by simpa using h.len, by simpa using h.vlen, h.ha, ?_, ?_, ?_, ?_, ?_, ?_, ?_, ?_, h.ack,
        h.look, hops _, ?_⟩
      · simp only
        rw [← h.ha]
        exact LpMultiMap.MPath.set hpos hpath hk h0 hp
      · simp only
        rw [occ_set hlt hz hk, cnt_update_add (by rw [hth]; exact hnp) rfl, ← h.cnt]
        omega
      · intro u B hu
        replace hu := upd_cases hu
        rcases hu with ⟨rfl, hu⟩ | ⟨hut, hu⟩
        · injection hu with hu
          subst hu
          exact ⟨hop, hk, List.getElem?_set_self hlt, hvn⟩
        · exact (h.loc u B hu).set hpos h0 hk
      · intro u w op1 op2 k1 k2 v1 v2 i st st' h1 h2
        have key : ∀ u op1 k1 v1 st, u ≠ t → c.th u =
            some ⟨op1, .store k1 v1 ((hash64 c.sh.a k + d) % c.sh.keys.length), st⟩ → False := by
          intro u op1 k1 v1 st _ hu
          have := h.loc u _ hu
          simp only [LocOk] at this
          rw [hz] at this
          have h3 := this.2.2.1
          injection h3 with h3
          exact this.2.1 h3.symm
        replace h1 := upd_cases h1
        replace h2 := upd_cases h2
        rcases h1 with ⟨e1, h1⟩ | ⟨e1, h1⟩ <;> rcases h2 with ⟨e2, h2⟩ | ⟨e2, h2⟩
        · rw [e1, e2]
        · injection h1 with h1
          injection h1 with _ h1 _
          injection h1 with _ _ h1
          subst h1
          exact absurd h2 (key w _ _ _ _ e2)
        · injection h2 with h2
          injection h2 with _ h2 _
          injection h2 with _ _ h2
          subst h2
          exact absurd h1 (key u _ _ _ _ e1)
        · exact h.own u w _ _ _ _ _ _ _ _ _ h1 h2
      · intro i w hw
        simp only at hw ⊢
        rw [List.getElem?_set]
        split
        · simpa using hk
        · exact h.zero i w hw
      · intro i x h1 h2 h3
        simp only at h1 h3 ⊢
        by_cases hi : (hash64 c.sh.a k + d) % c.sh.keys.length = i
        · subst hi
          rw [List.getElem?_set_self hlt] at h1
          injection h1 with h1
          subst h1
          exact ⟨t, A.op, v, A.steps + 1, by rw [Function.update_self]⟩
        · rw [List.getElem?_set_ne hi] at h1
          obtain ⟨u, op', w, st, hu⟩ := h.init i x h1 h2 h3
          refine ⟨u, op', w, st, ?_⟩
          rw [Function.update_of_ne, hu]
          rintro rfl
          rw [hth] at hu
          rw [hu] at hnp
          cases hnp
      · intro x w
        simp only
        rw [zip_set_left _ _ _ _ _ hvn, count_set_ne _ _ _ _ _ (getElem?_zip_some hz hvn) (by simp),
          cnt_update_same (by rw [hth, isIncr_of hnp]; rfl), h.stored]
        simp
      · intro u x w b hu
        obtain ⟨h1, h2, h3⟩ := h.ret u x w b hu
        exact ⟨h1, (mem_set_free hlt hz h1).2 (Or.inl h2), h3⟩
      · intro x hx hx0
        rcases (mem_set_free hlt hz hx0).1 hx with hx | rfl
        · exact h.orig x hx hx0
        · exact ⟨t, v, by rw [← hop]; exact h.ops t A hth⟩
    | store k v i hk hop hloc hki hvi =>
      have hi : i < c.sh.vals.length := (List.getElem?_eq_some_iff.1 hvi).1
      obtain ⟨op, l, st⟩ := A
      simp only at hloc hop
      subst hloc hop
      have hst : ∀ u op' k' v' i' st', Function.update c.th t
          (some ⟨MOp.insert k v, .incr k v, st + 1⟩) u =
          some ⟨op', .store k' v' i', st'⟩ → c.th u = some ⟨op', .store k' v' i', st'⟩ ∧ u ≠ t := by
        intro u op' k v i st hu
        replace hu := upd_cases hu
        rcases hu with ⟨rfl, hu⟩ | ⟨hut, hu⟩
        · cases hu
        · exact ⟨hu, hut⟩
      refine ⟨h.len, by simpa using h.vlen, h.ha, h.path, ?_, ?_, ?_, ?_, ?_, ?_, h.ret, h.ack,
        h.look, hops _, h.orig⟩
      · simp only
        rw [cnt_update_same (by rw [hth]; rfl), h.cnt]
      · intro u B hu
        replace hu := upd_cases hu
        rcases hu with ⟨rfl, hu⟩ | ⟨hut, hu⟩
        · injection hu with hu
          subst hu
          exact ⟨rfl, hk, List.mem_of_getElem? hki⟩
        · have hB := h.loc u B hu
          obtain ⟨op', l', st'⟩ := B
          cases l' with
          | store k' v' i' =>
            refine ⟨hB.1, hB.2.1, hB.2.2.1, ?_⟩
            simp only
            rw [List.getElem?_set_ne, hB.2.2.2]
            rintro rfl
            exact hut (h.own u t _ _ _ _ _ _ _ _ _ hu hth)
          | _ => exact hB
      · intro u w op1 op2 k1 k2 v1 v2 i st st' h1 h2
        exact h.own u w _ _ _ _ _ _ _ _ _ (hst _ _ _ _ _ _ h1).1 (hst _ _ _ _ _ _ h2).1
      · intro j w hw
        simp only at hw ⊢
        rw [List.getElem?_set] at hw
        split at hw
        · rename_i hij
          subst hij
          rw [hki]
          simpa using hk
        · exact h.zero j w hw
      · intro j x h1 h2 h3
        simp only at h1 h3 ⊢
        rw [List.getElem?_set] at h3
        split at h3
        · simp at h3
        · rename_i hij
          obtain ⟨u, op', w, st, hu⟩ := h.init j x h1 h2 h3
          refine ⟨u, op', w, st, ?_⟩
          rw [Function.update_of_ne, hu]
          rintro rfl
          rw [hth] at hu
          simp only [Option.some.injEq, Active.mk.injEq, Loc.store.injEq] at hu
          exact hij hu.2.1.2.2
      · intro x w
        simp only
        rw [zip_set_right _ _ _ _ _ hki, count_set_ne _ _ _ _ _ (getElem?_zip_some hki hvi) (by simp),
          h.stored, Nat.add_assoc]
        congr 1
        split
        · rename_i he
          replace he := eq_of_beq he
          rw [cnt_update_add (by rw [hth]; rfl)]
          simp [isIncr, he]
        · rename_i he
          replace he : ¬ _ = _ := fun hx => he (beq_iff_eq.2 hx)
          rw [cnt_update_same]
          · rfl
          · rw [hth]
            simp only [isIncr]
            simp only [decide_eq_false_iff_not]
            exact fun hx => he hx.symm
  | ret t A s' r hth hst =>
    have hA := h.loc t A hth
    rw [← h.ha] at hA
    obtain ⟨s1, out, hs1, hcase⟩ := step_cases h.len (by rw [h.ha]; exact h.path) h.vlen hA
    rw [show (obj a).step c.sh A.loc = step c.sh A.loc from rfl, hs1] at hst
    simp only [Option.some.injEq, Prod.mk.injEq] at hst
    obtain ⟨rfl, rfl⟩ := hst
    have hloc' : ∀ u B, Function.update c.th t none u = some B →
        LocOk a c.sh.keys c.sh.vals B := by
      intro u B hu
      replace hu := upd_cases hu
      rcases hu with ⟨rfl, hu⟩ | ⟨hut, hu⟩
      · cases hu
      · exact h.loc u B hu
    have hops : ∀ e u B, Function.update c.th t none u = some B → Ev.inv u B.op ∈ c.hist ++ e := by
      intro e u B hu
      replace hu := upd_cases hu
      rcases hu with ⟨rfl, hu⟩ | ⟨hut, hu⟩
      · cases hu
      · exact mono _ (h.ops u B hu)
    have hown : ∀ u w op op' k k' v v' i st st',
        Function.update c.th t none u = some ⟨op, .store k v i, st⟩ →
        Function.update c.th t none w = some ⟨op', .store k' v' i, st'⟩ → u = w := by
      intro u w op1 op2 k1 k2 v1 v2 i st st' h1 h2
      replace h1 := upd_cases h1
      replace h2 := upd_cases h2
      rcases h1 with ⟨e1, h1⟩ | ⟨e1, h1⟩
      · cases h1
      rcases h2 with ⟨e2, h2⟩ | ⟨e2, h2⟩
      · cases h2
      exact h.own u w _ _ _ _ _ _ _ _ _ h1 h2
    have hinit : (∀ k v i, A.loc ≠ .store k v i) → ∀ (i k : Nat), c.sh.keys[i]? = some k → k ≠ 0 →
        c.sh.vals[i]? = some none →
        ∃ u op v st, Function.update c.th t none u = some ⟨op, .store k v i, st⟩ := by
      intro hnp i k h1 h2 h3
      obtain ⟨u, op', v, st, hu⟩ := h.init i k h1 h2 h3
      refine ⟨u, op', v, st, ?_⟩
      rw [Function.update_of_ne, hu]
      rintro rfl
      rw [hth] at hu
      injection hu with hu
      exact hnp k v i (by rw [hu])
    have hnp' : isPend (some A) = false → ∀ k v i, A.loc ≠ .store k v i := by
      intro hnp k v i hl
      obtain ⟨op, l, st⟩ := A
      simp only at hl
      subst hl
      cases hnp
    have horig : ∀ e, ∀ k ∈ c.sh.keys, k ≠ 0 → ∃ u v, Ev.inv u (.insert k v) ∈ c.hist ++ e := by
      intro e k hk h0
      obtain ⟨u, v, hu⟩ := h.orig k hk h0
      exact ⟨u, v, mono _ hu⟩
    have hret : (∀ k v b, A.op = .insert k v → r = .bool b → k ≠ 0 ∧ k ∈ c.sh.keys ∧ b = true) →
        ∀ u k v b, Ev.res u (.insert k v) (.bool b) ∈ c.hist ++ [.res t A.op r] →
          k ≠ 0 ∧ k ∈ c.sh.keys ∧ b = true := by
      intro hnew u k v b hu
      rcases List.mem_append.1 hu with hu | hu
      · exact h.ret u k v b hu
      · simp only [List.mem_singleton, Ev.res.injEq] at hu
        exact hnew k v b hu.2.1.symm hu.2.2.symm
    have hlook : (∀ k b, A.op = .contains k → r = .bool b →
        (b = true → ∃ t' v, Ev.inv t' (.insert k v) ∈ c.hist) ∧
        (b = false → ∀ t' v b', Ev.res t' (.insert k v) (.bool b') ∉ c.hist)) →
        ∀ u k b h1 h2, c.hist ++ [.res t A.op r] = h1 ++ Ev.res u (.contains k) (.bool b) :: h2 →
        (b = true → ∃ t' v, Ev.inv t' (.insert k v) ∈ h1) ∧
        (b = false → ∀ t' v b', Ev.res t' (.insert k v) (.bool b') ∉ h1) := by
      intro hnew u k b h1 h2 hu
      rcases append_singleton_split hu with ⟨hh, he⟩ | ⟨h2', he⟩
      · simp only [Ev.res.injEq] at he
        rw [hh]
        exact hnew k b he.2.1.symm he.2.2.symm
      · exact h.look u k b h1 h2' he
    have hack : ackOf (n := n) (.res t A.op r) = none →
        acked (c.hist ++ [.res t A.op r]) = acked c.hist := by
      intro ha
      simp [acked, ha]
    cases hcase with
    | full hnp =>
      have ha : ackOf (n := n) (.res t A.op .full) = none := by
        obtain ⟨op, l, st⟩ := A
        cases op <;> rfl
      refine ⟨h.len, h.vlen, h.ha, h.path, ?_, hloc', hown, h.zero, hinit (hnp' hnp), ?_,
        hret (by simp), ?_, hlook (by simp), hops _, horig _⟩
      · simp only
        rw [cnt_update_same (by rw [hth, hnp]; rfl), h.cnt]
      · intro k v
        simp only
        rw [hack ha, cnt_update_same (by rw [hth, isIncr_of hnp]; rfl), h.stored]
      · simp only
        rw [hack ha]
        exact h.ack
    | absent k hop hk hnp =>
      have ha : ackOf (n := n) (.res t A.op (.bool false)) = none := by rw [hop]; rfl
      refine ⟨h.len, h.vlen, h.ha, h.path, ?_, hloc', hown, h.zero, hinit (hnp' hnp), ?_,
        hret (by rw [hop]; simp), ?_, hlook ?_, hops _, horig _⟩
      · simp only
        rw [cnt_update_same (by rw [hth, hnp]; rfl), h.cnt]
      · intro k v
        simp only
        rw [hack ha, cnt_update_same (by rw [hth, isIncr_of hnp]; rfl), h.stored]
      · simp only
        rw [hack ha]
        exact h.ack
      · intro k' b hk' hb
        injection hb with hb
        rw [hop] at hk'
        injection hk' with hk'
        subst hk' hb
        exact ⟨by simp, fun _ u w b hu => hk (h.ret u k w b hu).2.1⟩
    | found k hk0 hop hk hnp =>
      have ha : ackOf (n := n) (.res t A.op (.bool true)) = none := by rw [hop]; rfl
      refine ⟨h.len, h.vlen, h.ha, h.path, ?_, hloc', hown, h.zero, hinit (hnp' hnp), ?_,
        hret (by rw [hop]; simp), ?_, hlook ?_, hops _, horig _⟩
      · simp only
        rw [cnt_update_same (by rw [hth, hnp]; rfl), h.cnt]
      · intro k v
        simp only
        rw [hack ha, cnt_update_same (by rw [hth, isIncr_of hnp]; rfl), h.stored]
      · simp only
        rw [hack ha]
        exact h.ack
      · intro k' b hk' hb
        injection hb with hb
        rw [hop] at hk'
        injection hk' with hk'
        subst hk' hb
        exact ⟨fun _ => h.orig k hk hk0, by simp⟩
    | incr k v hk0 hk hop hloc =>
      have hp : isPend (c.th t) = true := by
        rw [hth]
        obtain ⟨op, l, st⟩ := A
        simp only at hloc
        subst hloc
        rfl
      have ha : acked (c.hist ++ [.res t A.op (.bool true)]) = acked c.hist ++ [(k, some v)] := by
        simp [acked, hop, ackOf]
      refine ⟨h.len, h.vlen, h.ha, h.path, ?_, hloc', hown, h.zero, hinit (by simp [hloc]), ?_,
        hret ?_, ?_, hlook (by rw [hop]; simp), hops _, horig _⟩
      · simp only
        have := cnt_update_sub (x := none) hp rfl
        have := h.cnt
        omega
      · intro x w
        simp only
        rw [ha, List.count_append, h.stored]
        have hI : isIncr (x, some w) (c.th t) = decide ((x, some w) = (k, some v)) := by
          rw [hth]
          obtain ⟨op, l, st⟩ := A
          simp only at hloc
          subst hloc
          rfl
        by_cases he : (x, some w) = (k, some v)
        · have h1 := cnt_update_sub (p := isIncr (x, some w)) (f := c.th) (t := t) (x := none)
            (by rw [hI]; simp [he]) rfl
          rw [he] at h1 ⊢
          simp only [List.count_singleton_self]
          omega
        · rw [cnt_update_same (by rw [hI]; simp only [isIncr]; simp only [he, decide_false])]
          rw [List.count_singleton, if_neg (by simpa using fun a b => he (by rw [a, b]))]
          rfl
      · intro k' v' b hk' hb
        injection hb with hb
        rw [hop] at hk'
        injection hk' with hk'
        subst hk' hb
        exact ⟨hk0, hk, rfl⟩
      · simp only
        rw [ha]
        intro q hq
        rcases List.mem_append.1 hq with hq | hq
        · exact h.ack q hq
        · simp only [List.mem_singleton] at hq
          rw [hq]
          exact hk0

theorem reach_inv {p a : Nat} {c : Config n Shared Loc MOp MRet}
    (h : Reach (obj a) Ok ⟨List.replicate (2 ^ p) 0, List.replicate (2 ^ p) none, 0, a⟩ c) :
    MInv p a c :=
  h.induct (init_inv p a) (fun _ _ _ hi hs => step_inv hi hs)

end ConcMultiMap
end Verif
