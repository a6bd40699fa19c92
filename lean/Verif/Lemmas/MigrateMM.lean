import Verif.Model.MigrateMM
import Verif.Lemmas.ConcMultiMap
import Verif.Lemmas.Migrate

/-!
# Invariants of the cooperative migration of a multimap

The helpers' insertions into the new table are an execution of the lock-free multimap: every state of
the migration is related (`Sim`) to a reachable state of `ConcMultiMap` in which the threads inside of
`insert` perform the same calls. The invariants of the multimap therefore carry over.
-/
namespace Verif
namespace ConcMultiMap
open Conc

variable {n : Nat}

/-- The item counter counts the acknowledged insertions. -/
theorem items_eq {p a : Nat} {c : Config n Shared Loc MOp MRet}
    (h : Reach (obj a) Ok ⟨List.replicate (2 ^ p) 0, List.replicate (2 ^ p) none, 0, a⟩ c) :
    c.sh.items = (acked c.hist).length := by
  refine Reach.induct (P := fun c => c.sh.items = (acked c.hist).length) rfl ?_ h
  intro c c' hr ih hs
  have hi := reach_inv hr
  cases hs with
  | call t op hidle hok => simpa [acked, ackOf, List.filterMap_cons] using ih
  | internal t A s' l' hth hst =>
    have hA := hi.loc t A hth
    rw [← hi.ha] at hA
    obtain ⟨s1, out, hs1, hcase⟩ := step_cases hi.len (by rw [hi.ha]; exact hi.path) hi.vlen hA
    rw [show (obj a).step c.sh A.loc = step c.sh A.loc from rfl, hs1] at hst
    simp only [Option.some.injEq, Prod.mk.injEq] at hst
    obtain ⟨rfl, rfl⟩ := hst
    cases hcase <;> exact ih
  | ret t A s' r hth hst =>
    have hA := hi.loc t A hth
    rw [← hi.ha] at hA
    obtain ⟨s1, out, hs1, hcase⟩ := step_cases hi.len (by rw [hi.ha]; exact hi.path) hi.vlen hA
    rw [show (obj a).step c.sh A.loc = step c.sh A.loc from rfl, hs1] at hst
    simp only [Option.some.injEq, Prod.mk.injEq] at hst
    obtain ⟨rfl, rfl⟩ := hst
    cases hcase with
    | full hnp =>
      obtain ⟨op, l, st⟩ := A
      cases op <;> simpa [acked, ackOf, List.filterMap_cons] using ih
    | incr k v hk0 hk hop hloc => simp [acked, ackOf, hop]; exact ih
    | absent k hop hk hnp => simpa [acked, ackOf, hop, List.filterMap_cons] using ih
    | found k hk0 hop hk hnp => simpa [acked, ackOf, hop, List.filterMap_cons] using ih

end ConcMultiMap

namespace MigrateMM
open Conc
open ConcMap (upd_cases)
open ConcMultiMap (MOp MRet acked ackOf)

/-- Whether slot `j` is claimed but not read yet by a thread. -/
def remL (j : Nat) : Loc → Bool
  | .slot i e => decide (i ≤ j ∧ j < e)
  | .val _ i e => decide (i ≤ j ∧ j < e)
  | .ins _ i e => decide (i + 1 ≤ j ∧ j < e)
  | _ => false

def rem (j : Nat) : Option (Active Loc Unit) → Bool
  | none => false
  | some A => remL j A.loc

/-- A thread counted by `helperThreads`. -/
def insideL : Loc → Bool
  | .enter => false
  | .wait => false
  | _ => true

def inside : Option (Active Loc Unit) → Bool
  | none => false
  | some A => insideL A.loc

/-- A thread that is not working on a slot. -/
def idleL : Loc → Bool
  | .slot _ _ => false
  | .val _ _ _ => false
  | .ins _ _ _ => false
  | _ => true

/-- Local invariant. -/
def LocOk (s : Shared) : Loc → Prop
  | .slot i e => i < e ∧ e ≤ s.okeys.length
  | .val k i e => i < e ∧ e ≤ s.okeys.length ∧ s.okeys[i]? = some k
  | .ins _ _ e => e ≤ s.okeys.length
  | .leave => s.okeys.length ≤ s.copy
  | .wait => s.okeys.length ≤ s.copy
  | _ => True

/-- The position of a thread inside of `insert` of the new table. -/
def proj : Option (Active Loc Unit) → Option ConcMultiMap.Loc
  | some ⟨_, .ins l _ _, _⟩ => some l
  | _ => none

/-- The pair a thread is inserting. -/
def carry (q : Nat × Nat) : Option (Active ConcMultiMap.Loc MOp) → Bool
  | some A => decide (A.op = .insert q.1 q.2)
  | none => false

/-- Slot `j` of the old table holds the pair `q`. -/
def holds (keys vals : List Nat) (q : Nat × Nat) (j : Nat) : Bool :=
  decide (keys[j]? = some q.1 ∧ vals[j]? = some q.2)

/-- Slot `j` of the old table is occupied. -/
def occupied (keys : List Nat) (j : Nat) : Bool := decide (keys[j]? ≠ some 0)

variable {n : Nat}

/-- The migration and an execution of the multimap agree. -/
structure Sim (a p : Nat) (keys vals : List Nat) (c : Config n Shared Loc Unit Unit)
    (d : Config n ConcMultiMap.Shared ConcMultiMap.Loc MOp MRet) : Prop where
  reach : Reach (ConcMultiMap.obj a) ConcMultiMap.Ok
    ⟨List.replicate (2 ^ p) 0, List.replicate (2 ^ p) none, 0, a⟩ d
  sh : d.sh = c.sh.new
  th : ∀ t, (d.th t).map (·.loc) = proj (c.th t)
  ops : ∀ t A, d.th t = some A → ∃ k v, A.op = .insert k v
  cnt : ∀ q : Nat × Nat, q.1 ≠ 0 → (acked d.hist).count (q.1, some q.2) + Conc.cnt (carry q) d.th =
    c.sh.copied.countP (holds keys vals q)
  tot : (acked d.hist).length + Conc.cnt Option.isSome d.th = c.sh.copied.countP (occupied keys)

structure MInv (a p : Nat) (keys vals : List Nat) (c : Config n Shared Loc Unit Unit) : Prop where
  hk : c.sh.okeys = keys
  hv : c.sh.ovals = vals
  part : ∀ j, c.sh.copied.count j + Conc.cnt (rem j) c.th =
    if j < c.sh.copy ∧ j < keys.length then 1 else 0
  helpers : c.sh.helpers = Conc.cnt inside c.th
  loc : ∀ t A, c.th t = some A → LocOk c.sh A.loc
  sim : ∃ d, Sim a p keys vals c d
  ret : ∀ t, Ev.res t () () ∈ c.hist → keys.length ≤ c.sh.copy ∧
    ∀ t A, c.th t = some A → idleL A.loc = true

theorem remL_next (j i e : Nat) : remL j (next i e) = decide (i + 1 ≤ j ∧ j < e) := by
  unfold next
  split
  · rfl
  · rename_i h
    simp only [remL]
    symm
    simp only [decide_eq_false_iff_not]
    omega

theorem insideL_next (i e : Nat) : insideL (next i e) = true := by
  unfold next; split <;> rfl

theorem LocOk_next {s : Shared} {i e : Nat} (h : e ≤ s.okeys.length) : LocOk s (next i e) := by
  unfold next
  split
  · rename_i hlt; exact ⟨hlt, h⟩
  · trivial

theorem proj_next (op : Unit) (i e st : Nat) : proj (some ⟨op, next i e, st⟩) = none := by
  unfold next; split <;> rfl

theorem LocOk.mono {s s' : Shared} (h1 : s'.okeys = s.okeys) (h4 : s.copy ≤ s'.copy) {l : Loc}
    (h : LocOk s l) : LocOk s' l := by
  cases l <;> simp only [LocOk, h1] at * <;> first | exact h | omega

/-- The slots that have been read are different slots of the old table. -/
theorem MInv.nodup {a p : Nat} {keys vals : List Nat} {c : Config n Shared Loc Unit Unit}
    (h : MInv a p keys vals c) : c.sh.copied.Nodup := by
  rw [List.nodup_iff_count_le_one]
  intro j
  have := h.part j
  split at this <;> omega

theorem MInv.lt {a p : Nat} {keys vals : List Nat} {c : Config n Shared Loc Unit Unit}
    (h : MInv a p keys vals c) : ∀ j ∈ c.sh.copied, j < keys.length := by
  intro j hj
  have := h.part j
  have := List.count_pos_iff.2 hj
  split at * <;> omega

theorem MInv.copied_le {a p : Nat} {keys vals : List Nat} {c : Config n Shared Loc Unit Unit}
    (h : MInv a p keys vals c) : c.sh.copied.countP (occupied keys) ≤ keys.length := by
  refine (List.countP_le_length (p := occupied keys)).trans ?_
  have := h.nodup.subperm (l₂ := List.range keys.length)
    (fun j hj => List.mem_range.2 (h.lt j hj))
  simpa using this.length_le

theorem isSome_of_proj {a p : Nat} {keys vals : List Nat} {c : Config n Shared Loc Unit Unit}
    {d : Config n ConcMultiMap.Shared ConcMultiMap.Loc MOp MRet} (h : Sim a p keys vals c d)
    {t : Fin n} {l : ConcMultiMap.Loc} (hp : proj (c.th t) = some l) :
    ∃ A, d.th t = some A ∧ A.loc = l := by
  have := h.th t
  rw [hp] at this
  simpa using this

/-- The new table is never found half full. -/
theorem not_full {a p : Nat} {keys vals : List Nat} (hp : 2 * keys.length ≤ 2 ^ p)
    {c : Config n Shared Loc Unit Unit} (h : MInv a p keys vals c)
    {d : Config n ConcMultiMap.Shared ConcMultiMap.Loc MOp MRet} (hd : Sim a p keys vals c d)
    {t : Fin n} {k v i e st : Nat} (ht : c.th t = some ⟨(), .ins (.check k v) i e, st⟩) :
    c.sh.new.items < c.sh.new.keys.length / 2 := by
  obtain ⟨A, hA, _⟩ := isSome_of_proj hd (t := t) (l := .check k v) (by rw [ht]; rfl)
  have h1 := ConcMultiMap.items_eq hd.reach
  have h2 := hd.tot
  have h3 := h.copied_le
  have h4 : 0 < Conc.cnt Option.isSome d.th := cnt_pos (t := t) (by rw [hA]; rfl)
  have h5 := (ConcMultiMap.reach_inv hd.reach).len
  rw [hd.sh] at h1 h5
  rw [h5]
  omega

theorem init_inv (a p : Nat) (keys vals : List Nat) (hp : nextPow2 (2 * keys.length) = 2 ^ p) :
    MInv a p keys vals (Config.init n (init a keys vals)) where
  hk := rfl
  hv := rfl
  part := by
    intro j
    simp only [Config.init, init]
    rw [cnt_eq_zero (fun t => rfl)]
    simp
  helpers := by
    simp only [Config.init, init]
    rw [cnt_eq_zero (fun t => rfl)]
  loc := by simp [Config.init]
  sim := by
    refine ⟨_, Reach.init, ?_, ?_, ?_, ?_, ?_⟩
    · simp [Config.init, init, ConcMultiMap.new, hp]
    · intro t; rfl
    · simp [Config.init]
    · intro q _
      simp only [Config.init, init]
      rw [cnt_eq_zero (fun t => rfl)]
      simp [acked]
    · simp only [Config.init, init]
      rw [cnt_eq_zero (fun t => rfl)]
      simp [acked]
  ret := by simp [Config.init]

/-- Outside of `insert`, a step that reads no slot keeps the relation. -/
theorem Sim.same {a p : Nat} {keys vals : List Nat} {c c' : Config n Shared Loc Unit Unit}
    {d : Config n ConcMultiMap.Shared ConcMultiMap.Loc MOp MRet} (h : Sim a p keys vals c d)
    (h1 : c'.sh.new = c.sh.new) (h2 : ∀ t, proj (c'.th t) = proj (c.th t))
    (h4 : c'.sh.copied = c.sh.copied) : Sim a p keys vals c' d :=
  ⟨h.reach, by rw [h1, h.sh], fun t => by rw [h2, h.th], h.ops,
    fun q hq => by rw [h4, h.cnt q hq], by rw [h4, h.tot]⟩

theorem MInv.upd {a p : Nat} {keys vals : List Nat} {c : Config n Shared Loc Unit Unit}
    (h : MInv a p keys vals c) {t : Fin n} {A : Active Loc Unit} {s' : Shared} {l' : Loc}
    (hth : c.th t = some A) (hk : s'.okeys = c.sh.okeys) (hv : s'.ovals = c.sh.ovals)
    (hcopy : c.sh.copy ≤ s'.copy)
    (hpart : ∀ j, s'.copied.count j +
      Conc.cnt (rem j) (Function.update c.th t (some ⟨A.op, l', A.steps + 1⟩)) =
      if j < s'.copy ∧ j < keys.length then 1 else 0)
    (hhelp : s'.helpers = Conc.cnt inside (Function.update c.th t (some ⟨A.op, l', A.steps + 1⟩)))
    (hl : LocOk s' l')
    (hsim : ∃ d, Sim a p keys vals
      ⟨s', Function.update c.th t (some ⟨A.op, l', A.steps + 1⟩), c.hist⟩ d)
    (hidle : idleL A.loc = true → keys.length ≤ c.sh.copy → idleL l' = true) :
    MInv a p keys vals ⟨s', Function.update c.th t (some ⟨A.op, l', A.steps + 1⟩), c.hist⟩ where
  hk := by rw [hk, h.hk]
  hv := by rw [hv, h.hv]
  part := hpart
  helpers := hhelp
  loc := by
    intro u B hu
    replace hu := upd_cases hu
    rcases hu with ⟨rfl, hu⟩ | ⟨hut, hu⟩
    · injection hu with hu
      subst hu
      exact hl
    · exact (h.loc u B hu).mono hk hcopy
  sim := hsim
  ret := by
    intro u hu
    obtain ⟨h1, h2⟩ := h.ret u hu
    refine ⟨by simp only; omega, fun w B hw => ?_⟩
    replace hw := upd_cases hw
    rcases hw with ⟨rfl, hw⟩ | ⟨hut, hw⟩
    · injection hw with hw
      subst hw
      exact hidle (h2 _ _ hth) h1
    · exact h2 w B hw

/-- A step of a thread that stays outside of `insert`. -/
theorem Sim.outside {a p : Nat} {keys vals : List Nat} {c : Config n Shared Loc Unit Unit}
    {d : Config n ConcMultiMap.Shared ConcMultiMap.Loc MOp MRet} (h : Sim a p keys vals c d)
    {t : Fin n} {A : Active Loc Unit} {s' : Shared} {x : Option (Active Loc Unit)}
    {e : List (Ev n Unit Unit)}
    (hth : c.th t = some A) (h1 : s'.new = c.sh.new) (h2 : proj x = none)
    (h3 : proj (some A) = none)
    (h4 : ∀ q : Nat × Nat, q.1 ≠ 0 → s'.copied.countP (holds keys vals q) =
      c.sh.copied.countP (holds keys vals q))
    (h5 : s'.copied.countP (occupied keys) = c.sh.copied.countP (occupied keys)) :
    Sim a p keys vals ⟨s', Function.update c.th t x, e⟩ d := by
  refine ⟨h.reach, by rw [h.sh, h1], fun u => ?_, h.ops, fun q hq => by rw [h4 q hq, h.cnt q hq],
    by rw [h5, h.tot]⟩
  by_cases hu : u = t
  · subst hu
    simp only [Function.update_self]
    rw [h.th, hth, h2, h3]
  · simp only [Function.update_of_ne hu]
    exact h.th u

theorem step_inv {a p : Nat} {keys vals : List Nat} (hlen : vals.length = keys.length)
    (hp : 2 * keys.length ≤ 2 ^ p) {c c' : Config n Shared Loc Unit Unit}
    (h : MInv a p keys vals c) (hs : Step obj (fun _ => True) c c') : MInv a p keys vals c' := by
  obtain ⟨d, hd⟩ := h.sim
  cases hs with
  | call t op hidle hok =>
    refine ⟨h.hk, h.hv, ?_, ?_, ?_, ⟨d, hd.reach, hd.sh, ?_, hd.ops, hd.cnt, hd.tot⟩, ?_⟩
    · intro j
      simp only
      rw [cnt_update_same (by rw [hidle]; rfl), h.part]
    · simp only
      rw [cnt_update_same (by rw [hidle]; rfl), h.helpers]
    · intro u A hu
      replace hu := upd_cases hu
      rcases hu with ⟨rfl, hu⟩ | ⟨hut, hu⟩
      · injection hu with hu
        subst hu
        trivial
      · exact h.loc u A hu
    · intro u
      by_cases hu : u = t
      · subst hu
        simp only [Function.update_self]
        rw [hd.th, hidle]
        rfl
      · simp only [Function.update_of_ne hu]
        exact hd.th u
    · intro u hu
      obtain ⟨h1, h2⟩ := h.ret u (by simpa using hu)
      refine ⟨h1, fun w B hw => ?_⟩
      replace hw := upd_cases hw
      rcases hw with ⟨rfl, hw⟩ | ⟨hut, hw⟩
      · injection hw with hw
        subst hw
        rfl
      · exact h2 w B hw
  | internal t A s' l' hth hst =>
    have hA := h.loc t A hth
    obtain ⟨op, l, st⟩ := A
    replace hst : step c.sh l = some (s', .inl l') := hst
    have hsame : ∀ (q : Option (Active Loc Unit) → Bool) (ql : Loc → Bool),
        (∀ B, q (some B) = ql B.loc) → ql l' = ql l →
        Conc.cnt q (Function.update c.th t (some ⟨op, l', st + 1⟩)) = Conc.cnt q c.th := by
      intro q ql hq hl
      exact cnt_update_same (by rw [hth, hq, hq, hl])
    cases l with
    | enter =>
      simp only [step, Option.some.injEq, Prod.mk.injEq, Sum.inl.injEq] at hst
      obtain ⟨rfl, rfl⟩ := hst
      refine h.upd hth rfl rfl (Nat.le_refl _) (fun j => ?_) ?_ trivial
        ⟨d, hd.outside hth rfl rfl rfl (fun _ _ => rfl) rfl⟩ (fun _ _ => rfl)
      · simp only
        rw [hsame (rem j) (remL j) (fun _ => rfl) rfl, h.part]
      · simp only
        rw [cnt_update_add (by rw [hth]; rfl) rfl, h.helpers]
    | claim =>
      simp only [step] at hst
      split at hst
      · rename_i hlt
        simp only [Option.some.injEq, Prod.mk.injEq, Sum.inl.injEq] at hst
        obtain ⟨rfl, rfl⟩ := hst
        refine h.upd hth rfl rfl (Nat.le_add_right _ _) (fun j => ?_) ?_ ?_
          ⟨d, hd.outside hth rfl rfl rfl (fun _ _ => rfl) rfl⟩ (fun _ hx => ?_)
        · simp only
          have hpj := h.part j
          have hlen : c.sh.okeys.length = keys.length := by rw [h.hk]
          by_cases hj : c.sh.copy ≤ j ∧ j < min (c.sh.copy + Migrate.blockSize) c.sh.okeys.length
          · rw [cnt_update_add (by rw [hth]; rfl) (by simp only [rem, remL]; simpa using hj),
              if_pos (by omega)]
            rw [if_neg (by omega)] at hpj
            omega
          · rw [hsame (rem j) (remL j) (fun _ => rfl) (by
              simp only [remL]
              simpa using hj), hpj]
            by_cases hj2 : j < c.sh.copy ∧ j < keys.length
            · rw [if_pos hj2, if_pos (by omega)]
            · rw [if_neg hj2, if_neg (by omega)]
        · simp only
          rw [hsame inside insideL (fun _ => rfl) rfl, h.helpers]
        · simp only [LocOk]
          unfold Migrate.blockSize
          omega
        · rw [h.hk] at hlt
          omega
      · rename_i hge
        simp only [Option.some.injEq, Prod.mk.injEq, Sum.inl.injEq] at hst
        obtain ⟨rfl, rfl⟩ := hst
        refine h.upd hth rfl rfl (Nat.le_add_right _ _) (fun j => ?_) ?_ ?_
          ⟨d, hd.outside hth rfl rfl rfl (fun _ _ => rfl) rfl⟩ (fun _ _ => rfl)
        · simp only
          rw [h.hk] at hge
          rw [hsame (rem j) (remL j) (fun _ => rfl) rfl, h.part]
          by_cases hj2 : j < c.sh.copy ∧ j < keys.length
          · rw [if_pos hj2, if_pos (by omega)]
          · rw [if_neg hj2, if_neg (by omega)]
        · simp only
          rw [hsame inside insideL (fun _ => rfl) rfl, h.helpers]
        · simp only [LocOk]
          omega
    | slot i e =>
      have hi : i < c.sh.okeys.length := Nat.lt_of_lt_of_le hA.1 hA.2
      simp only [step, List.getElem?_eq_getElem hi, Option.some.injEq, Prod.mk.injEq,
        Sum.inl.injEq] at hst
      obtain ⟨rfl, rfl⟩ := hst
      refine h.upd hth rfl rfl (Nat.le_refl _) (fun j => ?_) ?_
        ⟨hA.1, hA.2, List.getElem?_eq_getElem hi⟩
        ⟨d, hd.outside hth rfl rfl rfl (fun _ _ => rfl) rfl⟩ (fun hx _ => by cases hx)
      · rw [hsame (rem j) (remL j) (fun _ => rfl) rfl, h.part]
      · rw [hsame inside insideL (fun _ => rfl) rfl, h.helpers]
    | val k i e =>
      obtain ⟨hA1, hA2, hA3⟩ := hA
      have hi : i < c.sh.ovals.length := by
        have h1 := hA1
        have h2 : e ≤ c.sh.okeys.length := hA2
        rw [h.hk] at h2
        rw [h.hv]
        omega
      have hki : keys[i]? = some k := by rw [← h.hk]; exact hA3
      have hvi : vals[i]? = some c.sh.ovals[i] := by
        rw [← List.getElem?_eq_getElem hi, h.hv]
      have hpart : ∀ l'', (∀ j, remL j l'' = decide (i + 1 ≤ j ∧ j < e)) → ∀ j,
          (c.sh.copied ++ [i]).count j +
          Conc.cnt (rem j) (Function.update c.th t (some ⟨op, l'', st + 1⟩)) =
          if j < c.sh.copy ∧ j < keys.length then 1 else 0 := by
        intro l'' hl'' j
        rw [← h.part j, List.count_append, List.count_singleton]
        by_cases hj : i = j
        · subst hj
          have := cnt_update_sub (p := rem i) (f := c.th) (t := t)
            (x := some ⟨op, l'', st + 1⟩) (by rw [hth]; simp [rem, remL]; exact hA1)
            (by simp [rem, hl''])
          simp only [beq_self_eq_true, if_true]
          omega
        · rw [if_neg (by simpa using fun hx => hj hx)]
          rw [cnt_update_same (p := rem j) (by
            rw [hth]
            simp only [rem, hl'']
            simp only [remL]
            apply Bool.eq_iff_iff.2
            simp only [decide_eq_true_eq]
            omega)]
          omega
      simp only [step, List.getElem?_eq_getElem hi] at hst
      split at hst
      · rename_i hk0
        simp only [Option.some.injEq, Prod.mk.injEq, Sum.inl.injEq] at hst
        obtain ⟨rfl, rfl⟩ := hst
        refine h.upd hth rfl rfl (Nat.le_refl _) (hpart _ (fun j => rfl)) ?_ hA2 ?_
          (fun hx _ => by cases hx)
        · simp only
          rw [hsame inside insideL (fun _ => rfl) rfl, h.helpers]
        · have hdn : d.th t = none := by
            have := hd.th t
            rw [hth] at this
            simpa [proj] using this
          refine ⟨_, Reach.step hd.reach (Step.call d t (.insert k c.sh.ovals[i]) hdn hk0), hd.sh,
            fun u => ?_, fun u B hu => ?_, fun q hq => ?_, ?_⟩
          · by_cases hu : u = t
            · subst hu
              simp only [Function.update_self]
              rfl
            · simp only [Function.update_of_ne hu]
              exact hd.th u
          · replace hu := upd_cases hu
            rcases hu with ⟨rfl, hu⟩ | ⟨hut, hu⟩
            · injection hu with hu
              subst hu
              exact ⟨_, _, rfl⟩
            · exact hd.ops u B hu
          · simp only
            have hack : acked (d.hist ++ [.inv t (.insert k c.sh.ovals[i])]) = acked d.hist := by
              simp [acked, ackOf]
            rw [hack, List.countP_append, ← hd.cnt q hq, List.countP_singleton]
            by_cases hqe : q = (k, c.sh.ovals[i])
            · subst hqe
              rw [cnt_update_add (by rw [hdn]; rfl) (by simp [carry]),
                if_pos (by simp [holds, hki, hvi])]
              omega
            · have hne : ¬ (k = q.1 ∧ c.sh.ovals[i] = q.2) := fun hx =>
                hqe (Prod.ext hx.1.symm hx.2.symm)
              rw [cnt_update_same (by
                rw [hdn]
                simp only [carry, MOp.insert.injEq]
                simpa using fun hx => fun hy => hne ⟨hx, hy⟩), if_neg (by
                simp only [holds, hki, hvi, Option.some.injEq]
                simpa using fun hx => fun hy => hne ⟨hx, hy⟩)]
              rfl
          · simp only
            have hack : acked (d.hist ++ [.inv t (.insert k c.sh.ovals[i])]) = acked d.hist := by
              simp [acked, ackOf]
            rw [hack, List.countP_append, ← hd.tot, List.countP_singleton,
              cnt_update_add (by rw [hdn]; rfl) rfl, if_pos (by simpa [occupied, hki] using hk0)]
            omega
      · rename_i hk0
        simp only [ne_eq, not_not] at hk0
        subst hk0
        simp only [Option.some.injEq, Prod.mk.injEq, Sum.inl.injEq] at hst
        obtain ⟨rfl, rfl⟩ := hst
        refine h.upd hth rfl rfl (Nat.le_refl _) (hpart _ (fun j => remL_next j i e)) ?_
          (LocOk_next hA2) ⟨d, hd.outside hth rfl (proj_next _ _ _ _) rfl (fun q hq => ?_) ?_⟩
          (fun hx _ => by cases hx)
        · simp only
          rw [hsame inside insideL (fun _ => rfl) (insideL_next i e), h.helpers]
        · rw [List.countP_append, List.countP_singleton, if_neg]
          · rfl
          · simp only [holds, hki, Option.some.injEq]
            simpa using fun hx => absurd hx.symm hq
        · rw [List.countP_append, List.countP_singleton, if_neg]
          · rfl
          · simp [occupied, hki]
    | ins l i e =>
      obtain ⟨A, hAd, hAl⟩ := isSome_of_proj hd (t := t) (l := l) (by rw [hth]; rfl)
      obtain ⟨k, v, hop⟩ := hd.ops t A hAd
      have hdi := ConcMultiMap.reach_inv hd.reach
      simp only [step] at hst
      cases hm : ConcMultiMap.step c.sh.new l with
      | none => rw [hm] at hst; cases hst
      | some r =>
        obtain ⟨s1, r⟩ := r
        rw [hm] at hst
        rw [← hd.sh, ← hAl] at hm
        cases r with
        | inl l1 =>
          simp only [Option.some.injEq, Prod.mk.injEq, Sum.inl.injEq] at hst
          obtain ⟨rfl, rfl⟩ := hst
          refine h.upd hth rfl rfl (Nat.le_refl _) (fun j => ?_) ?_ hA
            ⟨_, Reach.step hd.reach (Step.internal d t A s1 l1 hAd hm), rfl, fun u => ?_,
              fun u B hu => ?_, fun q hq => ?_, ?_⟩ (fun hx _ => by cases hx)
          · simp only
            rw [hsame (rem j) (remL j) (fun _ => rfl) rfl, h.part]
          · simp only
            rw [hsame inside insideL (fun _ => rfl) rfl, h.helpers]
          · by_cases hu : u = t
            · subst hu
              simp only [Function.update_self]
              rfl
            · simp only [Function.update_of_ne hu]
              exact hd.th u
          · replace hu := upd_cases hu
            rcases hu with ⟨rfl, hu⟩ | ⟨hut, hu⟩
            · injection hu with hu
              subst hu
              exact ⟨k, v, hop⟩
            · exact hd.ops u B hu
          · simp only
            rw [cnt_update_same (by rw [hAd]; rfl), hd.cnt q hq]
          · simp only
            rw [cnt_update_same (by rw [hAd]; rfl), hd.tot]
        | inr r =>
          simp only [Option.some.injEq, Prod.mk.injEq, Sum.inl.injEq] at hst
          obtain ⟨rfl, rfl⟩ := hst
          have hr : r = .bool true := by
            have hLA := hdi.loc t A hAd
            rw [← hdi.ha] at hLA
            obtain ⟨s2, out, hs2, hcase⟩ := ConcMultiMap.step_cases hdi.len
              (by rw [hdi.ha]; exact hdi.path) hdi.vlen hLA
            rw [hm] at hs2
            simp only [Option.some.injEq, Prod.mk.injEq] at hs2
            obtain ⟨rfl, rfl⟩ := hs2
            cases hcase with
            | full hnp =>
              exfalso
              rw [hAl] at hm
              unfold ConcMultiMap.LocOk at hLA
              rw [hAl] at hLA
              cases l with
              | check k' v' =>
                have := not_full hp h hd hth
                rw [← hd.sh] at this
                simp only [ConcMultiMap.step] at hm
                rw [if_neg (by omega)] at hm
                cases hm
              | probe k' v' idx =>
                simp only [ConcMultiMap.step] at hm
                split at hm
                · cases hm
                · split at hm <;> simp at hm
              | cas k' v' j =>
                simp only [ConcMultiMap.step] at hm
                split at hm
                · cases hm
                · split at hm <;> simp at hm
              | store k' v' j =>
                simp only [ConcMultiMap.step] at hm
                split at hm <;> simp at hm
              | incr k' v' => simp [ConcMultiMap.step] at hm
              | look k' idx =>
                rw [hop] at hLA
                cases hLA.1
            | incr => rfl
            | absent k' hop' => rw [hop] at hop'; cases hop'
            | found => rfl
          subst hr
          refine h.upd hth rfl rfl (Nat.le_refl _) (fun j => ?_) ?_ (LocOk_next hA)
            ⟨_, Reach.step hd.reach (Step.ret d t A s1 (.bool true) hAd hm), rfl, fun u => ?_,
              fun u B hu => ?_, fun q hq => ?_, ?_⟩ (fun hx _ => by cases hx)
          · simp only
            rw [hsame (rem j) (remL j) (fun _ => rfl) (remL_next j i e), h.part]
          · simp only
            rw [hsame inside insideL (fun _ => rfl) (insideL_next i e), h.helpers]
          · by_cases hu : u = t
            · subst hu
              simp only [Function.update_self]
              rw [proj_next]
              rfl
            · simp only [Function.update_of_ne hu]
              exact hd.th u
          · replace hu := upd_cases hu
            rcases hu with ⟨rfl, hu⟩ | ⟨hut, hu⟩
            · cases hu
            · exact hd.ops u B hu
          · simp only
            have hack : acked (d.hist ++ [.res t A.op (.bool true)]) =
                acked d.hist ++ [(k, some v)] := by
              simp [acked, ackOf, hop]
            rw [hack, List.count_append, ← hd.cnt q hq, List.count_singleton]
            by_cases hqe : q = (k, v)
            · subst hqe
              have := cnt_update_sub (p := carry (k, v)) (f := d.th) (t := t) (x := none)
                (by rw [hAd]; simp [carry, hop]) rfl
              simp only [beq_self_eq_true, if_true]
              omega
            · have hne : ¬ (k = q.1 ∧ v = q.2) := fun hx => hqe (Prod.ext hx.1.symm hx.2.symm)
              rw [cnt_update_same (p := carry q) (x := none) (by
                rw [hAd]
                simp only [carry, hop, MOp.insert.injEq]
                symm
                simpa using fun hx => fun hy => hne ⟨hx, hy⟩), if_neg (by
                simpa using fun hx => fun hy => hne ⟨hx, hy⟩)]
              rfl
          · simp only
            have hack : acked (d.hist ++ [.res t A.op (.bool true)]) =
                acked d.hist ++ [(k, some v)] := by
              simp [acked, ackOf, hop]
            have := cnt_update_sub (p := Option.isSome) (f := d.th) (t := t) (x := none)
              (by rw [hAd]; rfl) rfl
            rw [hack, List.length_append, ← hd.tot]
            simp only [List.length_singleton]
            omega
    | leave =>
      simp only [step, Option.some.injEq, Prod.mk.injEq, Sum.inl.injEq] at hst
      obtain ⟨rfl, rfl⟩ := hst
      refine h.upd hth rfl rfl (Nat.le_refl _) (fun j => ?_) ?_ hA
        ⟨d, hd.outside hth rfl rfl rfl (fun _ _ => rfl) rfl⟩ (fun _ _ => rfl)
      · simp only
        rw [hsame (rem j) (remL j) (fun _ => rfl) rfl, h.part]
      · simp only
        have := cnt_update_sub (p := inside) (f := c.th) (t := t) (x := some ⟨op, .wait, st + 1⟩)
          (by rw [hth]; rfl) rfl
        rw [h.helpers]
        omega
    | wait =>
      simp only [step] at hst
      split at hst
      · cases hst
      · simp only [Option.some.injEq, Prod.mk.injEq, Sum.inl.injEq] at hst
        obtain ⟨rfl, rfl⟩ := hst
        refine h.upd hth rfl rfl (Nat.le_refl _) (fun j => ?_) ?_ hA
          ⟨d, hd.outside hth rfl rfl rfl (fun _ _ => rfl) rfl⟩ (fun _ _ => rfl)
        · rw [hsame (rem j) (remL j) (fun _ => rfl) rfl, h.part]
        · rw [hsame inside insideL (fun _ => rfl) rfl, h.helpers]
  | ret t A s' r hth hst =>
    have hA := h.loc t A hth
    obtain ⟨op, l, st⟩ := A
    replace hst : step c.sh l = some (s', .inr r) := hst
    have hw : l = .wait ∧ s' = c.sh ∧ c.sh.helpers = 0 := by
      cases l with
      | wait =>
        simp only [step] at hst
        split at hst
        · simp only [Option.some.injEq, Prod.mk.injEq] at hst
          exact ⟨rfl, hst.1.symm, by assumption⟩
        · cases hst
      | enter => cases hst
      | leave => cases hst
      | claim => simp only [step] at hst; split at hst <;> cases hst
      | slot i e => simp only [step] at hst; split at hst <;> cases hst
      | val k i e =>
        simp only [step] at hst
        split at hst
        · cases hst
        · split at hst <;> cases hst
      | ins l i e =>
        simp only [step] at hst
        split at hst <;> cases hst
    obtain ⟨rfl, rfl, h0⟩ := hw
    have hin : ∀ t, inside (c.th t) = false := by
      intro t
      by_contra hne
      have := cnt_pos (p := inside) (f := c.th) (t := t) (by simpa using hne)
      have := h.helpers
      omega
    refine ⟨h.hk, h.hv, ?_, ?_, ?_, ⟨d, hd.outside hth rfl rfl rfl (fun _ _ => rfl) rfl⟩, ?_⟩
    · intro j
      simp only
      rw [cnt_update_same (by rw [hth]; rfl), h.part]
    · simp only
      rw [cnt_update_same (by rw [hth]; rfl), h.helpers]
    · intro u B hu
      replace hu := upd_cases hu
      rcases hu with ⟨rfl, hu⟩ | ⟨hut, hu⟩
      · cases hu
      · exact h.loc u B hu
    · intro u _
      have hA' : c.sh.okeys.length ≤ c.sh.copy := hA
      rw [h.hk] at hA'
      refine ⟨hA', fun w B hw => ?_⟩
      replace hw := upd_cases hw
      rcases hw with ⟨rfl, hw⟩ | ⟨hut, hw⟩
      · cases hw
      · have := hin w
        rw [hw] at this
        obtain ⟨op', l', st'⟩ := B
        cases l' <;> first | rfl | cases this

theorem reach_inv {a p : Nat} {keys vals : List Nat} (hlen : vals.length = keys.length)
    (hp : nextPow2 (2 * keys.length) = 2 ^ p) (hge : 2 * keys.length ≤ 2 ^ p)
    {c : Config n Shared Loc Unit Unit}
    (h : Reach obj (fun _ => True) (init a keys vals) c) : MInv a p keys vals c :=
  h.induct (init_inv a p keys vals hp) (fun _ _ _ hi hs => step_inv hlen hge hi hs)

theorem zip_range {keys vals : List Nat} (hlen : vals.length = keys.length) :
    (List.range keys.length).map (fun j => (keys[j]?.getD 0, vals[j]?.getD 0)) = keys.zip vals := by
  apply List.ext_getElem
  · simp [hlen]
  · intro i h1 h2
    simp only [List.length_map, List.length_range] at h1
    simp [List.getElem?_eq_getElem h1, List.getElem?_eq_getElem (l := vals) (i := i) (by omega)]

/-- When a helper has finished, everything has been copied once. -/
theorem complete {a p : Nat} {keys vals : List Nat} (hlen : vals.length = keys.length)
    {c : Config n Shared Loc Unit Unit}
    (h : MInv a p keys vals c) (hc : keys.length ≤ c.sh.copy)
    (hidle : ∀ t A, c.th t = some A → idleL A.loc = true) :
    c.sh.copied.Perm (List.range keys.length) ∧
    ((c.sh.new.keys.zip c.sh.new.vals).filter (fun s => decide (s.1 ≠ 0))).Perm
      (((keys.zip vals).filter (fun s => decide (s.1 ≠ 0))).map (fun q => (q.1, some q.2))) ∧
    c.sh.new.items = ((keys.zip vals).filter (fun s => decide (s.1 ≠ 0))).length := by
  obtain ⟨d, hd⟩ := h.sim
  have hdi := ConcMultiMap.reach_inv hd.reach
  have hrem : ∀ j, Conc.cnt (rem j) c.th = 0 := by
    intro j
    refine cnt_eq_zero (fun t => ?_)
    cases hA : c.th t with
    | none => rfl
    | some A =>
      have := hidle t A hA
      obtain ⟨op, l, st⟩ := A
      cases l <;> first | rfl | cases this
  have hdn : ∀ t, d.th t = none := by
    intro t
    have h1 := hd.th t
    have h2 : proj (c.th t) = none := by
      cases hA : c.th t with
      | none => rfl
      | some A =>
        have := hidle t A hA
        obtain ⟨op, l, st⟩ := A
        cases l <;> first | rfl | cases this
    rw [h2] at h1
    simpa using h1
  have hcount : ∀ j, c.sh.copied.count j = if j < keys.length then 1 else 0 := by
    intro j
    have := h.part j
    rw [hrem j, Nat.add_zero] at this
    rw [this]
    by_cases hj : j < keys.length
    · rw [if_pos ⟨by omega, hj⟩, if_pos hj]
    · rw [if_neg (fun hx => hj hx.2), if_neg hj]
  have hperm : c.sh.copied.Perm (List.range keys.length) := by
    rw [List.perm_iff_count]
    intro j
    rw [hcount j]
    by_cases hj : j < keys.length
    · rw [if_pos hj, List.count_eq_one_of_mem List.nodup_range (List.mem_range.2 hj)]
    · rw [if_neg hj, List.count_eq_zero_of_not_mem (by simpa using hj)]
  have hP : ((c.sh.new.keys.zip c.sh.new.vals).filter (fun s => decide (s.1 ≠ 0))).Perm
      (((keys.zip vals).filter (fun s => decide (s.1 ≠ 0))).map (fun q => (q.1, some q.2))) := by
    rw [← hd.sh, List.perm_iff_count]
    rintro ⟨k, o⟩
    by_cases hk : k = 0
    · rw [List.count_eq_zero_of_not_mem, List.count_eq_zero_of_not_mem]
      · intro hm
        obtain ⟨q, hq, he⟩ := List.mem_map.1 hm
        have := (List.mem_filter.1 hq).2
        injection he with he1 _
        simp [he1, hk] at this
      · intro hm
        simpa [hk] using (List.mem_filter.1 hm).2
    · rw [List.count_filter (by simpa using hk)]
      cases o with
      | none =>
        rw [List.count_eq_zero_of_not_mem, List.count_eq_zero_of_not_mem]
        · simp
        · intro hm
          obtain ⟨i, hi', he⟩ := List.getElem_of_mem hm
          have : (d.sh.keys.zip d.sh.vals)[i]? = some (k, none) := by
            rw [List.getElem?_eq_getElem hi', he]
          rw [List.getElem?_zip_eq_some] at this
          obtain ⟨t, op, v, st, ht⟩ := hdi.init i k this.1 hk this.2
          rw [hdn t] at ht
          cases ht
      | some v =>
        have h1 := hd.cnt (k, v) hk
        rw [hdi.stored, cnt_eq_zero (fun t => by rw [hdn t]; rfl)]
        rw [cnt_eq_zero (fun t => by rw [hdn t]; rfl)] at h1
        simp only [Nat.add_zero] at h1 ⊢
        rw [h1, List.count_map_of_injective _ (fun q : Nat × Nat => (q.1, some q.2))
          (by rintro ⟨a, b⟩ ⟨c, d⟩ hh; simpa using hh) (k, v),
          List.count_filter (by simpa using hk), ← zip_range hlen, List.count_eq_countP, List.countP_map,
          hperm.countP_eq]
        refine List.countP_congr (fun j hj => ?_)
        have hj := List.mem_range.1 hj
        simp only [holds, Function.comp]
        rw [List.getElem?_eq_getElem hj, List.getElem?_eq_getElem (l := vals) (i := j) (by omega)]
        simp
  refine ⟨hperm, hP, ?_⟩
  have h0 : Conc.cnt ConcMultiMap.isPend d.th = 0 := cnt_eq_zero (fun t => by rw [hdn t]; rfl)
  have hcn := hdi.cnt
  rw [h0, Nat.add_zero] at hcn
  have hl := hP.length_eq
  rw [List.length_map] at hl
  rw [← hl, ← hd.sh, hcn, ← List.countP_eq_length_filter]
  unfold occ
  have hkv : d.sh.keys = (d.sh.keys.zip d.sh.vals).map Prod.fst := by
    rw [List.map_fst_zip]
    rw [hdi.vlen]
  conv_lhs => rw [hkv]
  rw [List.countP_map]
  congr 1
  funext x
  by_cases hx : x.1 = 0 <;> simp [hx]

end MigrateMM
end Verif
