import Verif.Model.MigrateMap
import Verif.Lemmas.ConcMap
import Verif.Lemmas.Migrate
import Verif.Lemmas.GrowingMM

/-!
# Invariants of the cooperative migration of a map

As for the multimap: the helpers' insertions into the new table are an execution of the lock-free map.
-/
namespace Verif
namespace ConcMap
open Conc

variable {n : Nat}

/-- The event is an insertion of `k` that returned true. -/
def isWon (k : Nat) : Ev n MapOp MapRet → Bool
  | .res _ (.insert k' _) (.bool true) => decide (k' = k)
  | _ => false

/-- The thread has claimed a slot for `k` and not returned yet. -/
def pendK (k : Nat) : Option (Active Loc MapOp) → Bool
  | some ⟨_, .store k' _ _ true, _⟩ => decide (k' = k)
  | some ⟨_, .incr k' _, _⟩ => decide (k' = k)
  | _ => false

theorem pendK_of_isPend {k : Nat} {A : Option (Active Loc MapOp)} (h : isPend A = false) :
    pendK k A = false := by
  cases A with
  | none => rfl
  | some A =>
    obtain ⟨op, l, st⟩ := A
    cases l with
    | store k' v i won =>
      cases won
      · rfl
      · cases h
    | incr k' v => cases h
    | _ => rfl

/-- The number of insertions of a key that have returned true or are about to is the number of slots
that hold the key. -/
theorem won_eq {p a k : Nat} (hk : k ≠ 0) {c : Config n Shared Loc MapOp MapRet}
    (h : Reach (obj a) Ok ⟨List.replicate (2 ^ p) 0, List.replicate (2 ^ p) none, 0, a⟩ c) :
    c.hist.countP (isWon k) + cnt (pendK k) c.th = c.sh.keys.count k := by
  refine Reach.induct (P := fun c => c.hist.countP (isWon k) + cnt (pendK k) c.th =
    c.sh.keys.count k) ?_ ?_ h
  · simp only [Config.init]
    rw [cnt_eq_zero (fun t => rfl), List.count_eq_zero_of_not_mem]
    · rfl
    · simpa using hk
  intro c c' hr ih hs
  have hi := reach_inv hr
  cases hs with
  | call t op hidle hok =>
    simp only [List.countP_append]
    rw [cnt_update_same (by
      rw [hidle]
      cases op <;> rfl), ← ih]
    simp [isWon]
  | internal t A s' l' hth hst =>
    have hA := hi.loc t A hth
    rw [← hi.ha] at hA
    rcases step_cases hi.len (by rw [hi.ha]; exact hi.path) hi.vlen hA with
      ⟨s1, out, hs1, hcase⟩ | ⟨hn, _⟩
    · rw [show (obj a).step c.sh A.loc = step c.sh A.loc from rfl, hs1] at hst
      simp only [Option.some.injEq, Prod.mk.injEq] at hst
      obtain ⟨rfl, rfl⟩ := hst
      cases hcase with
      | move l' hl h1 h2 =>
        simp only
        rw [cnt_update_same (by rw [hth, pendK_of_isPend h1, pendK_of_isPend h2]), ih]
      | cas k' v d hk' hop h0 hp hnp =>
        simp only
        have hlt : (hash64 c.sh.a k' + d) % c.sh.keys.length < c.sh.keys.length :=
          Nat.mod_lt _ hi.pos
        have hz : c.sh.keys[(hash64 c.sh.a k' + d) % c.sh.keys.length] = 0 := by
          rw [← sl_getElem _ _ hlt, sl_mod, h0]
        rw [List.count_set hlt, hz]
        simp only [beq_iff_eq, if_neg (Ne.symm hk)]
        by_cases hkk : k' = k
        · subst hkk
          rw [cnt_update_add (by rw [hth, pendK_of_isPend hnp]) (by simp [pendK]), if_pos rfl]
          omega
        · rw [cnt_update_same (by rw [hth, pendK_of_isPend hnp]; simp [pendK, hkk]), if_neg hkk]
          omega
      | storeWon k' v i hk' hop hl hki =>
        simp only
        rw [cnt_update_same (by
          rw [hth]
          obtain ⟨op, l, st⟩ := A
          simp only at hl
          subst hl
          rfl), ih]
    · rw [show (obj a).step c.sh A.loc = step c.sh A.loc from rfl, hn] at hst
      cases hst
  | ret t A s' r hth hst =>
    have hA := hi.loc t A hth
    rw [← hi.ha] at hA
    rcases step_cases hi.len (by rw [hi.ha]; exact hi.path) hi.vlen hA with
      ⟨s1, out, hs1, hcase⟩ | ⟨hn, _⟩
    · rw [show (obj a).step c.sh A.loc = step c.sh A.loc from rfl, hs1] at hst
      simp only [Option.some.injEq, Prod.mk.injEq] at hst
      obtain ⟨rfl, rfl⟩ := hst
      have hno : ∀ r, (∀ t k', isWon (n := n) k' (.res t A.op r) = false) → isPend (some A) = false →
          (c.hist ++ [Ev.res t A.op r]).countP (isWon k) +
            cnt (pendK k) (Function.update c.th t none) = c.sh.keys.count k := by
        intro r h1 h2
        rw [List.countP_append, List.countP_singleton, h1,
          cnt_update_same (by rw [hth, pendK_of_isPend h2]; rfl), ← ih]
        simp
      cases hcase with
      | full k' v hop hnp => exact hno .full (fun t k' => by cases A.op <;> rfl) hnp
      | storeLost k' v i hk' hop hl hki =>
        refine hno (.bool false) (fun t k' => by cases A.op <;> rfl) ?_
        obtain ⟨op, l, st⟩ := A
        simp only at hl
        subst hl
        rfl
      | incr k' v hop hl =>
        simp only
        rw [List.countP_append, List.countP_singleton, hop]
        simp only [isWon]
        by_cases hkk : k' = k
        · subst hkk
          have := cnt_update_sub (p := pendK k') (f := c.th) (t := t) (x := none)
            (by rw [hth]; obtain ⟨op, l, st⟩ := A; simp only at hl; subst hl; simp [pendK]) rfl
          simp only [decide_true, if_true]
          omega
        · rw [cnt_update_same (by
            rw [hth]; obtain ⟨op, l, st⟩ := A; simp only at hl; subst hl; simp [pendK, hkk])]
          simp only [hkk, decide_false]
          simpa using ih
      | absent k' hop hnk hnp => exact hno (.val 0) (fun t k' => by cases A.op <;> rfl) hnp
      | found k' v i hk' hop hki hvi hnp => exact hno (.val v) (fun t k' => by cases A.op <;> rfl) hnp
    · rw [show (obj a).step c.sh A.loc = step c.sh A.loc from rfl, hn] at hst
      cases hst

/-- The item counter counts returned insertions. -/
theorem items_le {p a : Nat} {c : Config n Shared Loc MapOp MapRet}
    (h : Reach (obj a) Ok ⟨List.replicate (2 ^ p) 0, List.replicate (2 ^ p) none, 0, a⟩ c) :
    c.sh.items ≤ c.hist.countP Ev.isRes := by
  refine Reach.induct (P := fun c => c.sh.items ≤ c.hist.countP Ev.isRes) (Nat.le_refl _) ?_ h
  intro c c' hr ih hs
  have hi := reach_inv hr
  cases hs with
  | call t op hidle hok => simpa [Ev.isRes] using ih
  | internal t A s' l' hth hst =>
    have hA := hi.loc t A hth
    rw [← hi.ha] at hA
    rcases step_cases hi.len (by rw [hi.ha]; exact hi.path) hi.vlen hA with
      ⟨s1, out, hs1, hcase⟩ | ⟨hn, _⟩
    · rw [show (obj a).step c.sh A.loc = step c.sh A.loc from rfl, hs1] at hst
      simp only [Option.some.injEq, Prod.mk.injEq] at hst
      obtain ⟨rfl, rfl⟩ := hst
      cases hcase <;> exact ih
    · rw [show (obj a).step c.sh A.loc = step c.sh A.loc from rfl, hn] at hst
      cases hst
  | ret t A s' r hth hst =>
    have hA := hi.loc t A hth
    rw [← hi.ha] at hA
    rcases step_cases hi.len (by rw [hi.ha]; exact hi.path) hi.vlen hA with
      ⟨s1, out, hs1, hcase⟩ | ⟨hn, _⟩
    · rw [show (obj a).step c.sh A.loc = step c.sh A.loc from rfl, hs1] at hst
      simp only [Option.some.injEq, Prod.mk.injEq] at hst
      obtain ⟨rfl, rfl⟩ := hst
      simp only [List.countP_append, List.countP_singleton, Ev.isRes, if_true]
      cases hcase <;> (try dsimp only) <;> omega
    · rw [show (obj a).step c.sh A.loc = step c.sh A.loc from rfl, hn] at hst
      cases hst

end ConcMap

namespace MigrateMap
open Conc
open ConcMap (upd_cases)
open ConcMap (MapOp MapRet)

/-- Whether slot `j` is claimed but not read yet by a thread. -/
def remL (j : Nat) : Loc → Bool
  | .slot i e => decide (i ≤ j ∧ j < e)
  | .val _ i e => decide (i ≤ j ∧ j < e)
  | .ins _ i e => decide (i + 1 ≤ j ∧ j < e)
  | _ => false

def rem (j : Nat) : Option (Active Loc Unit) → Bool
  | none => false
  | some A => remL j A.loc

/-- A thread counted by `helperThreads`. -/
def insideL : Loc → Bool
  | .enter => false
  | .wait => false
  | _ => true

def inside : Option (Active Loc Unit) → Bool
  | none => false
  | some A => insideL A.loc

/-- A thread that is not working on a slot. -/
def idleL : Loc → Bool
  | .slot _ _ => false
  | .val _ _ _ => false
  | .ins _ _ _ => false
  | _ => true

/-- Local invariant. -/
def LocOk (s : Shared) : Loc → Prop
  | .slot i e => i < e ∧ e ≤ s.okeys.length
  | .val k i e => i < e ∧ e ≤ s.okeys.length ∧ s.okeys[i]? = some k
  | .ins _ _ e => e ≤ s.okeys.length
  | .leave => s.okeys.length ≤ s.copy
  | .wait => s.okeys.length ≤ s.copy
  | _ => True

/-- The position of a thread inside of `insert` of the new table. -/
def proj : Option (Active Loc Unit) → Option ConcMap.Loc
  | some ⟨_, .ins l _ _, _⟩ => some l
  | _ => none

/-- Slot `j` of the old table is occupied. -/
def occupied (keys : List Nat) (j : Nat) : Bool := decide (keys[j]? ≠ some 0)

variable {n : Nat}

/-- The migration and an execution of the map agree. -/
structure Sim (a p : Nat) (keys vals : List Nat) (c : Config n Shared Loc Unit Unit)
    (d : Config n ConcMap.Shared ConcMap.Loc MapOp MapRet) : Prop where
  reach : Reach (ConcMap.obj a) ConcMap.Ok
    ⟨List.replicate (2 ^ p) 0, List.replicate (2 ^ p) none, 0, a⟩ d
  sh : d.sh = c.sh.new
  th : ∀ t, (d.th t).map (·.loc) = proj (c.th t)
  ops : ∀ t A, d.th t = some A → ∃ k v, A.op = .insert k v
  inv : ∀ t op, Ev.inv t op ∈ d.hist → ∃ k v j : Nat, op = .insert k v ∧ keys[j]? = some k ∧
    vals[j]? = some v
  fin : ∀ j ∈ c.sh.copied, ∀ k, keys[j]? = some k → k ≠ 0 →
    (∃ t v b, Ev.res t (.insert k v) (.bool b) ∈ d.hist) ∨
    ∃ t A v, d.th t = some A ∧ A.op = .insert k v
  tot : d.hist.countP Ev.isInv = c.sh.copied.countP (occupied keys)

structure MInv (a p : Nat) (keys vals : List Nat) (c : Config n Shared Loc Unit Unit) : Prop where
  hk : c.sh.okeys = keys
  hv : c.sh.ovals = vals
  part : ∀ j, c.sh.copied.count j + Conc.cnt (rem j) c.th =
    if j < c.sh.copy ∧ j < keys.length then 1 else 0
  helpers : c.sh.helpers = Conc.cnt inside c.th
  loc : ∀ t A, c.th t = some A → LocOk c.sh A.loc
  sim : ∃ d, Sim a p keys vals c d
  ret : ∀ t, Ev.res t () () ∈ c.hist → keys.length ≤ c.sh.copy ∧
    ∀ t A, c.th t = some A → idleL A.loc = true

theorem remL_next (j i e : Nat) : remL j (next i e) = decide (i + 1 ≤ j ∧ j < e) := by
  unfold next
  split
  · rfl
  · rename_i h
    simp only [remL]
    symm
    simp only [decide_eq_false_iff_not]
    omega

theorem insideL_next (i e : Nat) : insideL (next i e) = true := by
  unfold next; split <;> rfl

theorem LocOk_next {s : Shared} {i e : Nat} (h : e ≤ s.okeys.length) : LocOk s (next i e) := by
  unfold next
  split
  · rename_i hlt; exact ⟨hlt, h⟩
  · trivial

theorem proj_next (op : Unit) (i e st : Nat) : proj (some ⟨op, next i e, st⟩) = none := by
  unfold next; split <;> rfl

theorem LocOk.mono {s s' : Shared} (h1 : s'.okeys = s.okeys) (h4 : s.copy ≤ s'.copy) {l : Loc}
    (h : LocOk s l) : LocOk s' l := by
  cases l <;> simp only [LocOk, h1] at * <;> first | exact h | omega

/-- The slots that have been read are different slots of the old table. -/
theorem MInv.nodup {a p : Nat} {keys vals : List Nat} {c : Config n Shared Loc Unit Unit}
    (h : MInv a p keys vals c) : c.sh.copied.Nodup := by
  rw [List.nodup_iff_count_le_one]
  intro j
  have := h.part j
  split at this <;> omega

theorem MInv.lt {a p : Nat} {keys vals : List Nat} {c : Config n Shared Loc Unit Unit}
    (h : MInv a p keys vals c) : ∀ j ∈ c.sh.copied, j < keys.length := by
  intro j hj
  have := h.part j
  have := List.count_pos_iff.2 hj
  split at * <;> omega

theorem MInv.copied_le {a p : Nat} {keys vals : List Nat} {c : Config n Shared Loc Unit Unit}
    (h : MInv a p keys vals c) : c.sh.copied.countP (occupied keys) ≤ keys.length := by
  refine (List.countP_le_length (p := occupied keys)).trans ?_
  have := h.nodup.subperm (l₂ := List.range keys.length)
    (fun j hj => List.mem_range.2 (h.lt j hj))
  simpa using this.length_le

theorem isSome_of_proj {a p : Nat} {keys vals : List Nat} {c : Config n Shared Loc Unit Unit}
    {d : Config n ConcMap.Shared ConcMap.Loc MapOp MapRet} (h : Sim a p keys vals c d)
    {t : Fin n} {l : ConcMap.Loc} (hp : proj (c.th t) = some l) :
    ∃ A, d.th t = some A ∧ A.loc = l := by
  have := h.th t
  rw [hp] at this
  simpa using this

/-- The new table is never found half full. -/
theorem not_full {a p : Nat} {keys vals : List Nat} (hp : 2 * keys.length ≤ 2 ^ p)
    {c : Config n Shared Loc Unit Unit} (h : MInv a p keys vals c)
    {d : Config n ConcMap.Shared ConcMap.Loc MapOp MapRet} (hd : Sim a p keys vals c d)
    {t : Fin n} {k v i e st : Nat} (ht : c.th t = some ⟨(), .ins (.check k v) i e, st⟩) :
    c.sh.new.items < c.sh.new.keys.length / 2 := by
  obtain ⟨A, hA, _⟩ := isSome_of_proj hd (t := t) (l := .check k v) (by rw [ht]; rfl)
  have h1 := ConcMap.items_le hd.reach
  have h6 := calls_eq hd.reach
  have h2 := hd.tot
  have h3 := h.copied_le
  have h4 : 0 < Conc.cnt Option.isSome d.th := cnt_pos (t := t) (by rw [hA]; rfl)
  have h5 := (ConcMap.reach_inv hd.reach).len
  rw [hd.sh] at h1 h5
  rw [h5]
  omega

theorem init_inv (a p : Nat) (keys vals : List Nat) (hp : nextPow2 (2 * keys.length) = 2 ^ p) :
    MInv a p keys vals (Config.init n (init a keys vals)) where
  hk := rfl
  hv := rfl
  part := by
    intro j
    simp only [Config.init, init]
    rw [cnt_eq_zero (fun t => rfl)]
    simp
  helpers := by
    simp only [Config.init, init]
    rw [cnt_eq_zero (fun t => rfl)]
  loc := by simp [Config.init]
  sim := by
    refine ⟨_, Reach.init, ?_, ?_, ?_, ?_, ?_, ?_⟩
    · simp [Config.init, init, ConcMap.new, hp]
    · intro t; rfl
    · simp [Config.init]
    · simp [Config.init]
    · simp [Config.init, init]
    · simp [Config.init, init]
  ret := by simp [Config.init]

theorem MInv.upd {a p : Nat} {keys vals : List Nat} {c : Config n Shared Loc Unit Unit}
    (h : MInv a p keys vals c) {t : Fin n} {A : Active Loc Unit} {s' : Shared} {l' : Loc}
    (hth : c.th t = some A) (hk : s'.okeys = c.sh.okeys) (hv : s'.ovals = c.sh.ovals)
    (hcopy : c.sh.copy ≤ s'.copy)
    (hpart : ∀ j, s'.copied.count j +
      Conc.cnt (rem j) (Function.update c.th t (some ⟨A.op, l', A.steps + 1⟩)) =
      if j < s'.copy ∧ j < keys.length then 1 else 0)
    (hhelp : s'.helpers = Conc.cnt inside (Function.update c.th t (some ⟨A.op, l', A.steps + 1⟩)))
    (hl : LocOk s' l')
    (hsim : ∃ d, Sim a p keys vals
      ⟨s', Function.update c.th t (some ⟨A.op, l', A.steps + 1⟩), c.hist⟩ d)
    (hidle : idleL A.loc = true → keys.length ≤ c.sh.copy → idleL l' = true) :
    MInv a p keys vals ⟨s', Function.update c.th t (some ⟨A.op, l', A.steps + 1⟩), c.hist⟩ where
  hk := by rw [hk, h.hk]
  hv := by rw [hv, h.hv]
  part := hpart
  helpers := hhelp
  loc := by
    intro u B hu
    replace hu := upd_cases hu
    rcases hu with ⟨rfl, hu⟩ | ⟨hut, hu⟩
    · injection hu with hu
      subst hu
      exact hl
    · exact (h.loc u B hu).mono hk hcopy
  sim := hsim
  ret := by
    intro u hu
    obtain ⟨h1, h2⟩ := h.ret u hu
    refine ⟨by simp only; omega, fun w B hw => ?_⟩
    replace hw := upd_cases hw
    rcases hw with ⟨rfl, hw⟩ | ⟨hut, hw⟩
    · injection hw with hw
      subst hw
      exact hidle (h2 _ _ hth) h1
    · exact h2 w B hw

/-- A step of a thread that stays outside of `insert`. -/
theorem Sim.outside {a p : Nat} {keys vals : List Nat} {c : Config n Shared Loc Unit Unit}
    {d : Config n ConcMap.Shared ConcMap.Loc MapOp MapRet} (h : Sim a p keys vals c d)
    {t : Fin n} {A : Active Loc Unit} {s' : Shared} {x : Option (Active Loc Unit)}
    {e : List (Ev n Unit Unit)}
    (hth : c.th t = some A) (h1 : s'.new = c.sh.new) (h2 : proj x = none)
    (h3 : proj (some A) = none)
    (h4 : ∀ j ∈ s'.copied, j ∈ c.sh.copied ∨ keys[j]? = some 0)
    (h5 : s'.copied.countP (occupied keys) = c.sh.copied.countP (occupied keys)) :
    Sim a p keys vals ⟨s', Function.update c.th t x, e⟩ d := by
  refine ⟨h.reach, by rw [h.sh, h1], fun u => ?_, h.ops, h.inv,
    fun j hj k hk hk0 => ?_, by rw [h5, h.tot]⟩
  · by_cases hu : u = t
    · subst hu
      simp only [Function.update_self]
      rw [h.th, hth, h2, h3]
    · simp only [Function.update_of_ne hu]
      exact h.th u
  rcases h4 j hj with hj | hj
  · exact h.fin j hj k hk hk0
  · rw [hk] at hj
    injection hj with hj
    exact absurd hj hk0

theorem step_inv {a p : Nat} {keys vals : List Nat} (hlen : vals.length = keys.length)
    (hp : 2 * keys.length ≤ 2 ^ p) {c c' : Config n Shared Loc Unit Unit}
    (h : MInv a p keys vals c) (hs : Step obj (fun _ => True) c c') : MInv a p keys vals c' := by
  obtain ⟨d, hd⟩ := h.sim
  cases hs with
  | call t op hidle hok =>
    refine ⟨h.hk, h.hv, ?_, ?_, ?_, ⟨d, hd.reach, hd.sh, ?_, hd.ops, hd.inv, hd.fin, hd.tot⟩, ?_⟩
    · intro j
      simp only
      rw [cnt_update_same (by rw [hidle]; rfl), h.part]
    · simp only
      rw [cnt_update_same (by rw [hidle]; rfl), h.helpers]
    · intro u A hu
      replace hu := upd_cases hu
      rcases hu with ⟨rfl, hu⟩ | ⟨hut, hu⟩
      · injection hu with hu
        subst hu
        trivial
      · exact h.loc u A hu
    · intro u
      by_cases hu : u = t
      · subst hu
        simp only [Function.update_self]
        rw [hd.th, hidle]
        rfl
      · simp only [Function.update_of_ne hu]
        exact hd.th u
    · intro u hu
      obtain ⟨h1, h2⟩ := h.ret u (by simpa using hu)
      refine ⟨h1, fun w B hw => ?_⟩
      replace hw := upd_cases hw
      rcases hw with ⟨rfl, hw⟩ | ⟨hut, hw⟩
      · injection hw with hw
        subst hw
        rfl
      · exact h2 w B hw
  | internal t A s' l' hth hst =>
    have hA := h.loc t A hth
    obtain ⟨op, l, st⟩ := A
    replace hst : step c.sh l = some (s', .inl l') := hst
    have hsame : ∀ (q : Option (Active Loc Unit) → Bool) (ql : Loc → Bool),
        (∀ B, q (some B) = ql B.loc) → ql l' = ql l →
        Conc.cnt q (Function.update c.th t (some ⟨op, l', st + 1⟩)) = Conc.cnt q c.th := by
      intro q ql hq hl
      exact cnt_update_same (by rw [hth, hq, hq, hl])
    cases l with
    | enter =>
      simp only [step, Option.some.injEq, Prod.mk.injEq, Sum.inl.injEq] at hst
      obtain ⟨rfl, rfl⟩ := hst
      refine h.upd hth rfl rfl (Nat.le_refl _) (fun j => ?_) ?_ trivial
        ⟨d, hd.outside hth rfl rfl rfl (fun _ hj => Or.inl hj) rfl⟩ (fun _ _ => rfl)
      · simp only
        rw [hsame (rem j) (remL j) (fun _ => rfl) rfl, h.part]
      · simp only
        rw [cnt_update_add (by rw [hth]; rfl) rfl, h.helpers]
    | claim =>
      simp only [step] at hst
      split at hst
      · rename_i hlt
        simp only [Option.some.injEq, Prod.mk.injEq, Sum.inl.injEq] at hst
        obtain ⟨rfl, rfl⟩ := hst
        refine h.upd hth rfl rfl (Nat.le_add_right _ _) (fun j => ?_) ?_ ?_
          ⟨d, hd.outside hth rfl rfl rfl (fun _ hj => Or.inl hj) rfl⟩ (fun _ hx => ?_)
        · simp only
          have hpj := h.part j
          have hlen : c.sh.okeys.length = keys.length := by rw [h.hk]
          by_cases hj : c.sh.copy ≤ j ∧ j < min (c.sh.copy + Migrate.blockSize) c.sh.okeys.length
          · rw [cnt_update_add (by rw [hth]; rfl) (by simp only [rem, remL]; simpa using hj),
              if_pos (by omega)]
            rw [if_neg (by omega)] at hpj
            omega
          · rw [hsame (rem j) (remL j) (fun _ => rfl) (by
              simp only [remL]
              simpa using hj), hpj]
            by_cases hj2 : j < c.sh.copy ∧ j < keys.length
            · rw [if_pos hj2, if_pos (by omega)]
            · rw [if_neg hj2, if_neg (by omega)]
        · simp only
          rw [hsame inside insideL (fun _ => rfl) rfl, h.helpers]
        · simp only [LocOk]
          unfold Migrate.blockSize
          omega
        · rw [h.hk] at hlt
          omega
      · rename_i hge
        simp only [Option.some.injEq, Prod.mk.injEq, Sum.inl.injEq] at hst
        obtain ⟨rfl, rfl⟩ := hst
        refine h.upd hth rfl rfl (Nat.le_add_right _ _) (fun j => ?_) ?_ ?_
          ⟨d, hd.outside hth rfl rfl rfl (fun _ hj => Or.inl hj) rfl⟩ (fun _ _ => rfl)
        · simp only
          rw [h.hk] at hge
          rw [hsame (rem j) (remL j) (fun _ => rfl) rfl, h.part]
          by_cases hj2 : j < c.sh.copy ∧ j < keys.length
          · rw [if_pos hj2, if_pos (by omega)]
          · rw [if_neg hj2, if_neg (by omega)]
        · simp only
          rw [hsame inside insideL (fun _ => rfl) rfl, h.helpers]
        · simp only [LocOk]
          omega
    | slot i e =>
      have hi : i < c.sh.okeys.length := Nat.lt_of_lt_of_le hA.1 hA.2
      simp only [step, List.getElem?_eq_getElem hi, Option.some.injEq, Prod.mk.injEq,
        Sum.inl.injEq] at hst
      obtain ⟨rfl, rfl⟩ := hst
      refine h.upd hth rfl rfl (Nat.le_refl _) (fun j => ?_) ?_
        ⟨hA.1, hA.2, List.getElem?_eq_getElem hi⟩
        ⟨d, hd.outside hth rfl rfl rfl (fun _ hj => Or.inl hj) rfl⟩ (fun hx _ => by cases hx)
      · rw [hsame (rem j) (remL j) (fun _ => rfl) rfl, h.part]
      · rw [hsame inside insideL (fun _ => rfl) rfl, h.helpers]
    | val k i e =>
      obtain ⟨hA1, hA2, hA3⟩ := hA
      have hi : i < c.sh.ovals.length := by
        have h1 := hA1
        have h2 : e ≤ c.sh.okeys.length := hA2
        rw [h.hk] at h2
        rw [h.hv]
        omega
      have hki : keys[i]? = some k := by rw [← h.hk]; exact hA3
      have hvi : vals[i]? = some c.sh.ovals[i] := by
        rw [← List.getElem?_eq_getElem hi, h.hv]
      have hpart : ∀ l'', (∀ j, remL j l'' = decide (i + 1 ≤ j ∧ j < e)) → ∀ j,
          (c.sh.copied ++ [i]).count j +
          Conc.cnt (rem j) (Function.update c.th t (some ⟨op, l'', st + 1⟩)) =
          if j < c.sh.copy ∧ j < keys.length then 1 else 0 := by
        intro l'' hl'' j
        rw [← h.part j, List.count_append, List.count_singleton]
        by_cases hj : i = j
        · subst hj
          have := cnt_update_sub (p := rem i) (f := c.th) (t := t)
            (x := some ⟨op, l'', st + 1⟩) (by rw [hth]; simp [rem, remL]; exact hA1)
            (by simp [rem, hl''])
          simp only [beq_self_eq_true, if_true]
          omega
        · rw [if_neg (by simpa using fun hx => hj hx)]
          rw [cnt_update_same (p := rem j) (by
            rw [hth]
            simp only [rem, hl'']
            simp only [remL]
            apply Bool.eq_iff_iff.2
            simp only [decide_eq_true_eq]
            omega)]
          omega
      simp only [step, List.getElem?_eq_getElem hi] at hst
      split at hst
      · rename_i hk0
        simp only [Option.some.injEq, Prod.mk.injEq, Sum.inl.injEq] at hst
        obtain ⟨rfl, rfl⟩ := hst
        refine h.upd hth rfl rfl (Nat.le_refl _) (hpart _ (fun j => rfl)) ?_ hA2 ?_
          (fun hx _ => by cases hx)
        · simp only
          rw [hsame inside insideL (fun _ => rfl) rfl, h.helpers]
        · have hdn : d.th t = none := by
            have := hd.th t
            rw [hth] at this
            simpa [proj] using this
          refine ⟨_, Reach.step hd.reach (Step.call d t (.insert k c.sh.ovals[i]) hdn hk0), hd.sh,
            fun u => ?_, fun u B hu => ?_, fun u op' hu => ?_, fun j hj k' hk' hk0' => ?_, ?_⟩
          · by_cases hu : u = t
            · subst hu
              simp only [Function.update_self]
              rfl
            · simp only [Function.update_of_ne hu]
              exact hd.th u
          · replace hu := upd_cases hu
            rcases hu with ⟨rfl, hu⟩ | ⟨hut, hu⟩
            · injection hu with hu
              subst hu
              exact ⟨_, _, rfl⟩
            · exact hd.ops u B hu
          · rcases List.mem_append.1 hu with hu | hu
            · exact hd.inv u op' hu
            · simp only [List.mem_singleton, Ev.inv.injEq] at hu
              exact ⟨k, _, i, hu.2, hki, hvi⟩
          · rcases List.mem_append.1 hj with hj | hj
            · rcases hd.fin j hj k' hk' hk0' with ⟨u, v, b, hu⟩ | ⟨u, B, v, hu, hB⟩
              · exact Or.inl ⟨u, v, b, List.mem_append_left _ hu⟩
              · refine Or.inr ⟨u, B, v, ?_, hB⟩
                simp only
                rw [Function.update_of_ne (by rintro rfl; rw [hdn] at hu; cases hu)]
                exact hu
            · rw [List.mem_singleton] at hj
              subst hj
              rw [hki] at hk'
              injection hk' with hk'
              subst hk'
              exact Or.inr ⟨t, _, _, Function.update_self .., rfl⟩
          · simp only
            rw [List.countP_append, List.countP_append, ← hd.tot, List.countP_singleton,
              List.countP_singleton, show occupied keys i = true by simpa [occupied, hki] using hk0]
            simp [Ev.isInv]
      · rename_i hk0
        simp only [ne_eq, not_not] at hk0
        subst hk0
        simp only [Option.some.injEq, Prod.mk.injEq, Sum.inl.injEq] at hst
        obtain ⟨rfl, rfl⟩ := hst
        refine h.upd hth rfl rfl (Nat.le_refl _) (hpart _ (fun j => remL_next j i e)) ?_
          (LocOk_next hA2) ⟨d, hd.outside hth rfl (proj_next _ _ _ _) rfl (fun j hj => ?_) ?_⟩
          (fun hx _ => by cases hx)
        · simp only
          rw [hsame inside insideL (fun _ => rfl) (insideL_next i e), h.helpers]
        · rcases List.mem_append.1 hj with hj | hj
          · exact Or.inl hj
          · rw [List.mem_singleton] at hj
            subst hj
            exact Or.inr hki
        · rw [List.countP_append, List.countP_singleton, if_neg]
          · rfl
          · simp [occupied, hki]
    | ins l i e =>
      obtain ⟨A, hAd, hAl⟩ := isSome_of_proj hd (t := t) (l := l) (by rw [hth]; rfl)
      obtain ⟨k, v, hop⟩ := hd.ops t A hAd
      have hdi := ConcMap.reach_inv hd.reach
      simp only [step] at hst
      cases hm : ConcMap.step c.sh.new l with
      | none => rw [hm] at hst; cases hst
      | some r =>
        obtain ⟨s1, r⟩ := r
        rw [hm] at hst
        rw [← hd.sh, ← hAl] at hm
        cases r with
        | inl l1 =>
          simp only [Option.some.injEq, Prod.mk.injEq, Sum.inl.injEq] at hst
          obtain ⟨rfl, rfl⟩ := hst
          refine h.upd hth rfl rfl (Nat.le_refl _) (fun j => ?_) ?_ hA
            ⟨_, Reach.step hd.reach (Step.internal d t A s1 l1 hAd hm), rfl, fun u => ?_,
              fun u B hu => ?_, hd.inv, fun j hj k' hk' hk0' => ?_, hd.tot⟩
              (fun hx _ => by cases hx)
          · simp only
            rw [hsame (rem j) (remL j) (fun _ => rfl) rfl, h.part]
          · simp only
            rw [hsame inside insideL (fun _ => rfl) rfl, h.helpers]
          · by_cases hu : u = t
            · subst hu
              simp only [Function.update_self]
              rfl
            · simp only [Function.update_of_ne hu]
              exact hd.th u
          · replace hu := upd_cases hu
            rcases hu with ⟨rfl, hu⟩ | ⟨hut, hu⟩
            · injection hu with hu
              subst hu
              exact ⟨k, v, hop⟩
            · exact hd.ops u B hu
          · rcases hd.fin j hj k' hk' hk0' with hu | ⟨u, B, v', hu, hB⟩
            · exact Or.inl hu
            · by_cases hut : u = t
              · subst hut
                rw [hAd] at hu
                injection hu with hu
                subst hu
                exact Or.inr ⟨u, _, v', Function.update_self .., hB⟩
              · exact Or.inr ⟨u, B, v', by simpa only [Function.update_of_ne hut] using hu, hB⟩
        | inr r =>
          simp only [Option.some.injEq, Prod.mk.injEq, Sum.inl.injEq] at hst
          obtain ⟨rfl, rfl⟩ := hst
          have hr : ∃ b, r = .bool b := by
            have hLA := hdi.loc t A hAd
            rw [← hdi.ha] at hLA
            rcases ConcMap.step_cases hdi.len (by rw [hdi.ha]; exact hdi.path) hdi.vlen hLA with
              ⟨s2, out, hs2, hcase⟩ | ⟨hn, _⟩
            · rw [hm] at hs2
              simp only [Option.some.injEq, Prod.mk.injEq] at hs2
              obtain ⟨rfl, rfl⟩ := hs2
              cases hcase with
              | full k1 v1 hop1 hnp =>
                exfalso
                rw [hAl] at hm
                unfold ConcMap.LocOk at hLA
                rw [hAl] at hLA
                cases l with
                | check k' v' =>
                  have := not_full hp h hd hth
                  rw [← hd.sh] at this
                  simp only [ConcMap.step] at hm
                  rw [if_neg (by omega)] at hm
                  cases hm
                | probe k' v' idx =>
                  simp only [ConcMap.step] at hm
                  split at hm
                  · cases hm
                  · split at hm
                    · simp at hm
                    · split at hm <;> simp at hm
                | cas k' v' j =>
                  simp only [ConcMap.step] at hm
                  split at hm
                  · cases hm
                  · split at hm
                    · simp at hm
                    · split at hm <;> simp at hm
                | store k' v' j won =>
                  simp only [ConcMap.step] at hm
                  split at hm
                  · cases won <;> simp at hm
                  · cases hm
                | incr k' v' => simp [ConcMap.step] at hm
                | look k' idx =>
                  rw [hop] at hLA
                  cases hLA.1
                | lookV k' idx =>
                  rw [hop] at hLA
                  cases hLA.1
              | storeLost => exact ⟨_, rfl⟩
              | incr => exact ⟨_, rfl⟩
              | absent k' hop' => rw [hop] at hop'; cases hop'
              | found k' v' i' hk' hop' => rw [hop] at hop'; cases hop'
            · rw [hm] at hn
              cases hn
          obtain ⟨b, rfl⟩ := hr
          refine h.upd hth rfl rfl (Nat.le_refl _) (fun j => ?_) ?_ (LocOk_next hA)
            ⟨_, Reach.step hd.reach (Step.ret d t A s1 (.bool b) hAd hm), rfl, fun u => ?_,
              fun u B hu => ?_, fun u op' hu => ?_, fun j hj k' hk' hk0' => ?_, ?_⟩
              (fun hx _ => by cases hx)
          · simp only
            rw [hsame (rem j) (remL j) (fun _ => rfl) (remL_next j i e), h.part]
          · simp only
            rw [hsame inside insideL (fun _ => rfl) (insideL_next i e), h.helpers]
          · by_cases hu : u = t
            · subst hu
              simp only [Function.update_self]
              rw [proj_next]
              rfl
            · simp only [Function.update_of_ne hu]
              exact hd.th u
          · replace hu := upd_cases hu
            rcases hu with ⟨rfl, hu⟩ | ⟨hut, hu⟩
            · cases hu
            · exact hd.ops u B hu
          · exact hd.inv u op' (by simpa using hu)
          · rcases hd.fin j hj k' hk' hk0' with ⟨u, v', b', hu⟩ | ⟨u, B, v', hu, hB⟩
            · exact Or.inl ⟨u, v', b', List.mem_append_left _ hu⟩
            · by_cases hut : u = t
              · subst hut
                rw [hAd] at hu
                injection hu with hu
                subst hu
                exact Or.inl ⟨u, v', b, by rw [hB]; simp⟩
              · exact Or.inr ⟨u, B, v', by simpa only [Function.update_of_ne hut] using hu, hB⟩
          · simp only
            rw [List.countP_append, ← hd.tot, List.countP_singleton]
            simp [Ev.isInv]
    | leave =>
      simp only [step, Option.some.injEq, Prod.mk.injEq, Sum.inl.injEq] at hst
      obtain ⟨rfl, rfl⟩ := hst
      refine h.upd hth rfl rfl (Nat.le_refl _) (fun j => ?_) ?_ hA
        ⟨d, hd.outside hth rfl rfl rfl (fun _ hj => Or.inl hj) rfl⟩ (fun _ _ => rfl)
      · simp only
        rw [hsame (rem j) (remL j) (fun _ => rfl) rfl, h.part]
      · simp only
        have := cnt_update_sub (p := inside) (f := c.th) (t := t) (x := some ⟨op, .wait, st + 1⟩)
          (by rw [hth]; rfl) rfl
        rw [h.helpers]
        omega
    | wait =>
      simp only [step] at hst
      split at hst
      · cases hst
      · simp only [Option.some.injEq, Prod.mk.injEq, Sum.inl.injEq] at hst
        obtain ⟨rfl, rfl⟩ := hst
        refine h.upd hth rfl rfl (Nat.le_refl _) (fun j => ?_) ?_ hA
          ⟨d, hd.outside hth rfl rfl rfl (fun _ hj => Or.inl hj) rfl⟩ (fun _ _ => rfl)
        · rw [hsame (rem j) (remL j) (fun _ => rfl) rfl, h.part]
        · rw [hsame inside insideL (fun _ => rfl) rfl, h.helpers]
  | ret t A s' r hth hst =>
    have hA := h.loc t A hth
    obtain ⟨op, l, st⟩ := A
    replace hst : step c.sh l = some (s', .inr r) := hst
    have hw : l = .wait ∧ s' = c.sh ∧ c.sh.helpers = 0 := by
      cases l with
      | wait =>
        simp only [step] at hst
        split at hst
        · simp only [Option.some.injEq, Prod.mk.injEq] at hst
          exact ⟨rfl, hst.1.symm, by assumption⟩
        · cases hst
      | enter => cases hst
      | leave => cases hst
      | claim => simp only [step] at hst; split at hst <;> cases hst
      | slot i e => simp only [step] at hst; split at hst <;> cases hst
      | val k i e =>
        simp only [step] at hst
        split at hst
        · cases hst
        · split at hst <;> cases hst
      | ins l i e =>
        simp only [step] at hst
        split at hst <;> cases hst
    obtain ⟨rfl, rfl, h0⟩ := hw
    have hin : ∀ t, inside (c.th t) = false := by
      intro t
      by_contra hne
      have := cnt_pos (p := inside) (f := c.th) (t := t) (by simpa using hne)
      have := h.helpers
      omega
    refine ⟨h.hk, h.hv, ?_, ?_, ?_, ⟨d, hd.outside hth rfl rfl rfl (fun _ hj => Or.inl hj) rfl⟩, ?_⟩
    · intro j
      simp only
      rw [cnt_update_same (by rw [hth]; rfl), h.part]
    · simp only
      rw [cnt_update_same (by rw [hth]; rfl), h.helpers]
    · intro u B hu
      replace hu := upd_cases hu
      rcases hu with ⟨rfl, hu⟩ | ⟨hut, hu⟩
      · cases hu
      · exact h.loc u B hu
    · intro u _
      have hA' : c.sh.okeys.length ≤ c.sh.copy := hA
      rw [h.hk] at hA'
      refine ⟨hA', fun w B hw => ?_⟩
      replace hw := upd_cases hw
      rcases hw with ⟨rfl, hw⟩ | ⟨hut, hw⟩
      · cases hw
      · have := hin w
        rw [hw] at this
        obtain ⟨op', l', st'⟩ := B
        cases l' <;> first | rfl | cases this

theorem reach_inv {a p : Nat} {keys vals : List Nat} (hlen : vals.length = keys.length)
    (hp : nextPow2 (2 * keys.length) = 2 ^ p) (hge : 2 * keys.length ≤ 2 ^ p)
    {c : Config n Shared Loc Unit Unit}
    (h : Reach obj (fun _ => True) (init a keys vals) c) : MInv a p keys vals c :=
  h.induct (init_inv a p keys vals hp) (fun _ _ _ hi hs => step_inv hlen hge hi hs)

/-- When a helper has finished, everything has been copied once. -/
theorem complete {a p : Nat} {keys vals : List Nat} (hlen : vals.length = keys.length)
    (hnd : (keys.filter (fun k => decide (k ≠ 0))).Nodup)
    {c : Config n Shared Loc Unit Unit}
    (h : MInv a p keys vals c) (hc : keys.length ≤ c.sh.copy)
    (hidle : ∀ t A, c.th t = some A → idleL A.loc = true) :
    c.sh.copied.Perm (List.range keys.length) ∧
    ((c.sh.new.keys.zip c.sh.new.vals).filter (fun s => decide (s.1 ≠ 0))).Perm
      (((keys.zip vals).filter (fun s => decide (s.1 ≠ 0))).map (fun q => (q.1, some q.2))) ∧
    c.sh.new.items = ((keys.zip vals).filter (fun s => decide (s.1 ≠ 0))).length := by
  obtain ⟨d, hd⟩ := h.sim
  have hdi := ConcMap.reach_inv hd.reach
  have hrem : ∀ j, Conc.cnt (rem j) c.th = 0 := by
    intro j
    refine cnt_eq_zero (fun t => ?_)
    cases hA : c.th t with
    | none => rfl
    | some A =>
      have := hidle t A hA
      obtain ⟨op, l, st⟩ := A
      cases l <;> first | rfl | cases this
  have hdn : ∀ t, d.th t = none := by
    intro t
    have h1 := hd.th t
    have h2 : proj (c.th t) = none := by
      cases hA : c.th t with
      | none => rfl
      | some A =>
        have := hidle t A hA
        obtain ⟨op, l, st⟩ := A
        cases l <;> first | rfl | cases this
    rw [h2] at h1
    simpa using h1
  have hcount : ∀ j, c.sh.copied.count j = if j < keys.length then 1 else 0 := by
    intro j
    have := h.part j
    rw [hrem j, Nat.add_zero] at this
    rw [this]
    by_cases hj : j < keys.length
    · rw [if_pos ⟨by omega, hj⟩, if_pos hj]
    · rw [if_neg (fun hx => hj hx.2), if_neg hj]
  have hperm : c.sh.copied.Perm (List.range keys.length) := by
    rw [List.perm_iff_count]
    intro j
    rw [hcount j]
    by_cases hj : j < keys.length
    · rw [if_pos hj, List.count_eq_one_of_mem List.nodup_range (List.mem_range.2 hj)]
    · rw [if_neg hj, List.count_eq_zero_of_not_mem (by simpa using hj)]
  have hfst : ∀ {β : Type} (ks : List Nat) (vs : List β), vs.length = ks.length →
      ((ks.zip vs).filter (fun s => decide (s.1 ≠ 0))).map Prod.fst =
        ks.filter (fun k => decide (k ≠ 0)) := by
    intro β ks vs hl
    have : ks.filter (fun k => decide (k ≠ 0)) =
        ((ks.zip vs).map Prod.fst).filter (fun k => decide (k ≠ 0)) := by
      rw [List.map_fst_zip (by omega)]
    rw [this, List.filter_map]
    rfl
  have hl2 : d.sh.vals.length = d.sh.keys.length := hdi.vlen
  have hN : (((d.sh.keys.zip d.sh.vals).filter (fun s => decide (s.1 ≠ 0))).map Prod.fst).Nodup := by
    rw [hfst _ _ hl2]
    have := hdi.path.nodup
    convert this using 2
    funext x
    by_cases hx : x = 0 <;> simp [hx]
  have hO : (((keys.zip vals).filter (fun s => decide (s.1 ≠ 0))).map Prod.fst).Nodup := by
    rw [hfst _ _ hlen]
    exact hnd
  have hkey : ∀ {v v' : Nat} {j j' k : Nat}, k ≠ 0 → keys[j]? = some k → vals[j]? = some v →
      keys[j']? = some k → vals[j']? = some v' → v = v' := by
    intro v v' j j' k hk0 h1 h2 h3 h4
    have m1 : (k, v) ∈ (keys.zip vals).filter (fun s => decide (s.1 ≠ 0)) :=
      List.mem_filter.2 ⟨List.mem_of_getElem? (List.getElem?_zip_eq_some.2 ⟨h1, h2⟩), by simpa using hk0⟩
    have m2 : (k, v') ∈ (keys.zip vals).filter (fun s => decide (s.1 ≠ 0)) :=
      List.mem_filter.2 ⟨List.mem_of_getElem? (List.getElem?_zip_eq_some.2 ⟨h3, h4⟩), by simpa using hk0⟩
    have := List.inj_on_of_nodup_map hO m1 m2 rfl
    injection this
  have hval : ∀ (i k : Nat), d.sh.keys[i]? = some k → k ≠ 0 → ∃ v j : Nat, d.sh.vals[i]? = some (some v) ∧
      keys[j]? = some k ∧ vals[j]? = some v := by
    intro i k hik hk0
    have hil : i < d.sh.vals.length := by rw [hl2]; exact (List.getElem?_eq_some_iff.1 hik).1
    cases hv : d.sh.vals[i] with
    | none =>
      obtain ⟨t, op, v, st, ht⟩ := hdi.init i k hik hk0 (by rw [List.getElem?_eq_getElem hil, hv])
      rw [hdn t] at ht
      cases ht
    | some v =>
      have hv' : d.sh.vals[i]? = some (some v) := by rw [List.getElem?_eq_getElem hil, hv]
      obtain ⟨k', h1, h2, t, h3⟩ := hdi.vals i v hv'
      rw [hik] at h1
      injection h1 with h1
      subst h1
      obtain ⟨k2, v2, j, h4, h5, h6⟩ := hd.inv t _ h3
      injection h4 with h4 h4'
      subst h4 h4'
      exact ⟨v, j, hv', h5, h6⟩
  have hP : ((c.sh.new.keys.zip c.sh.new.vals).filter (fun s => decide (s.1 ≠ 0))).Perm
      (((keys.zip vals).filter (fun s => decide (s.1 ≠ 0))).map (fun q => (q.1, some q.2))) := by
    rw [← hd.sh, List.perm_ext_iff_of_nodup (List.Nodup.of_map _ hN)
      (List.Nodup.map (by rintro ⟨a, b⟩ ⟨c, d⟩ hh; simpa using hh) (List.Nodup.of_map _ hO))]
    rintro ⟨k, o⟩
    constructor
    · intro hm
      obtain ⟨hm, hk0⟩ := List.mem_filter.1 hm
      replace hk0 : k ≠ 0 := by simpa using hk0
      obtain ⟨i, hi⟩ := List.mem_iff_getElem?.1 hm
      obtain ⟨hi1, hi2⟩ := List.getElem?_zip_eq_some.1 hi
      obtain ⟨v, j, h1, h2, h3⟩ := hval i k hi1 hk0
      rw [hi2] at h1
      injection h1 with h1
      subst h1
      exact List.mem_map.2 ⟨(k, v), List.mem_filter.2 ⟨List.mem_of_getElem?
        (List.getElem?_zip_eq_some.2 ⟨h2, h3⟩), by simpa using hk0⟩, rfl⟩
    · intro hm
      obtain ⟨⟨k', v⟩, hm', he⟩ := List.mem_map.1 hm
      clear hm
      injection he with he1 he2
      subst he1 he2
      obtain ⟨hm, hk0⟩ := List.mem_filter.1 hm'
      replace hk0 : k' ≠ 0 := by simpa using hk0
      obtain ⟨j, hj⟩ := List.mem_iff_getElem?.1 hm
      obtain ⟨hj1, hj2⟩ := List.getElem?_zip_eq_some.1 hj
      have hjc : j ∈ c.sh.copied := hperm.mem_iff.2 (List.mem_range.2 (List.getElem?_eq_some_iff.1 hj1).1)
      rcases hd.fin j hjc k' hj1 hk0 with ⟨t, w, b, hr⟩ | ⟨t, A, w, hA, _⟩
      · obtain ⟨i, hi⟩ := List.mem_iff_getElem?.1 (hdi.lose t k' w b hr).2
        obtain ⟨v', j', h1, h2, h3⟩ := hval i k' hi hk0
        have := hkey hk0 hj1 hj2 h2 h3
        subst this
        exact List.mem_filter.2 ⟨List.mem_of_getElem? (List.getElem?_zip_eq_some.2 ⟨hi, h1⟩),
          by simpa using hk0⟩
      · rw [hdn t] at hA
        cases hA
  refine ⟨hperm, hP, ?_⟩
  have h0 : Conc.cnt ConcMap.isPend d.th = 0 := cnt_eq_zero (fun t => by rw [hdn t]; rfl)
  have hcn := hdi.cnt
  rw [h0, Nat.add_zero] at hcn
  have hl := hP.length_eq
  rw [List.length_map] at hl
  rw [← hl, ← hd.sh, hcn, ← List.countP_eq_length_filter]
  unfold occ
  have hkv : d.sh.keys = (d.sh.keys.zip d.sh.vals).map Prod.fst := by
    rw [List.map_fst_zip]
    rw [hdi.vlen]
  conv_lhs => rw [hkv]
  rw [List.countP_map]
  congr 1
  funext x
  by_cases hx : x.1 = 0 <;> simp [hx]

end MigrateMap
end Verif
