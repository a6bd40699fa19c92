import Verif.Model.BulkMerge
import Verif.Lemmas.ConcSet
import Verif.Lemmas.ConcMap

/-!
# Invariants of the parallel bulk merge
-/
namespace Verif
namespace BulkMerge
open Conc
open ConcSet (Passed passed_succ)
open ConcMap (upd_cases)

theorem growLoop_spec {c p : Nat} (h1 : 1 ≤ c) (h2 : c ≤ 2 ^ p) :
    ∃ q, Returns (fun n => growLoop c n (2 ^ p)) (2 ^ q) ∧ 2 * c ≤ 2 ^ q := by
  by_cases h : c > 2 ^ p / 2
  · refine ⟨p + 1, ⟨2, fun m hm => ?_⟩, by rw [pow_succ]; omega⟩
    obtain ⟨m, rfl⟩ : ∃ m', m = m' + 2 := ⟨m - 2, by omega⟩
    have e : 2 * 2 ^ p = 2 ^ (p + 1) := by rw [pow_succ]; omega
    simp only [growLoop]
    rw [if_pos h, if_neg (by omega), e]
  · refine ⟨p, ⟨1, fun m hm => ?_⟩, by omega⟩
    obtain ⟨m, rfl⟩ : ∃ m', m = m' + 1 := ⟨m - 1, by omega⟩
    simp only [growLoop]
    rw [if_neg h]

theorem newSize_spec (a b : Nat) (h : 1 ≤ a + b) :
    ∃ q, Returns (fun n => newSize n a b) (2 ^ q) ∧ 2 * (a + b) ≤ 2 ^ q := by
  obtain ⟨p, hp⟩ := nextPow2_isPow (show 0 < a + b by omega)
  unfold newSize
  rw [hp]
  exact growLoop_spec h (by rw [← hp]; exact le_nextPow2 _)

theorem passed_lt {arr : List Nat} (h0 : 0 ∈ arr) {h k d : Nat}
    (hp : Passed arr h k d) : d < arr.length := by
  by_contra hd
  have hd : arr.length ≤ d := by omega
  obtain ⟨i, hi, hi0⟩ := (mem_iff_sl 0).1 h0
  have hpos : 0 < arr.length := by omega
  obtain ⟨e, he, hei⟩ : ∃ e, e < arr.length ∧ (h + e) % arr.length = i := by
    refine ⟨(i + (arr.length - h % arr.length)) % arr.length, Nat.mod_lt _ hpos, ?_⟩
    have h1 := Nat.mod_lt h hpos
    rw [Nat.add_mod_mod]
    have : h + (i + (arr.length - h % arr.length)) = i + (arr.length * (h / arr.length) + arr.length) := by
      have := Nat.div_add_mod h arr.length
      omega
    rw [this, show i + (arr.length * (h / arr.length) + arr.length) =
      i + arr.length * (h / arr.length + 1) by ring, Nat.add_mul_mod_self_left, Nat.mod_eq_of_lt hi]
  have := (hp e (by omega)).1
  rw [← sl_mod, hei] at this
  exact this hi0

/-- Position in the sequence of half loop bodies. -/
def pos (i : Nat) (snd : Bool) : Nat := 2 * i + snd.toNat

/-- The task has not finished with half loop body `c`. -/
def waits : Loc → Nat → Prop
  | .read i _ snd, c => pos i snd ≤ c
  | .probe _ _ i _ snd, c => pos i snd ≤ c
  | .cas _ _ i _ snd, c => pos i snd ≤ c
  | .incr i _ snd, c => pos i snd < c

def pendL : Loc → Bool
  | .incr _ _ _ => true
  | _ => false

def pend : Option (Active Loc Chunk) → Bool
  | none => false
  | some A => pendL A.loc

/-- Steps used before half loop body `(i, snd)`. -/
def base (L lo i : Nat) (snd : Bool) : Nat := (2 * (i - lo) + snd.toNat) * (2 * L + 3)

/-- Local invariant. -/
def LocOk (s : Shared) (op : Chunk) (st : Nat) : Loc → Prop
  | .read i e snd => e = op.hi ∧ op.lo ≤ i ∧ i ≤ e ∧ (snd = true → i < e) ∧
      st ≤ base s.new.arr.length op.lo i snd
  | .probe k idx i e snd => e = op.hi ∧ op.lo ≤ i ∧ i < e ∧ k ≠ 0 ∧ (src s snd)[i]? = some k ∧
      s.F k = false ∧
      ∃ d, idx % s.new.arr.length = (hash64 s.new.a k + d) % s.new.arr.length ∧
        Passed s.new.arr (hash64 s.new.a k) k d ∧
        st ≤ base s.new.arr.length op.lo i snd + 1 + 2 * d
  | .cas k j i e snd => e = op.hi ∧ op.lo ≤ i ∧ i < e ∧ k ≠ 0 ∧ (src s snd)[i]? = some k ∧
      s.F k = false ∧
      ∃ d, j = (hash64 s.new.a k + d) % s.new.arr.length ∧
        Passed s.new.arr (hash64 s.new.a k) k d ∧
        st ≤ base s.new.arr.length op.lo i snd + 2 + 2 * d
  | .incr i e snd => e = op.hi ∧ op.lo ≤ i ∧ i < e ∧
      st ≤ base s.new.arr.length op.lo i snd + 2 * s.new.arr.length + 2

theorem base_next (L lo i : Nat) (h : lo ≤ i) :
    base L lo i false + (2 * L + 3) = base L lo i true ∧
    base L lo i true + (2 * L + 3) = base L lo (i + 1) false := by
  unfold base
  constructor
  · simp only [Bool.toNat_false, Bool.toNat_true]; ring
  · simp only [Bool.toNat_false, Bool.toNat_true]
    rw [show i + 1 - lo = (i - lo) + 1 by omega]; ring

theorem LocOk_next {s : Shared} {op : Chunk} {st i e : Nat} {snd : Bool} (h1 : e = op.hi)
    (h2 : op.lo ≤ i) (h3 : i < e)
    (h4 : st ≤ base s.new.arr.length op.lo i snd + (2 * s.new.arr.length + 3)) :
    LocOk s op st (next i e snd) := by
  have hb := base_next s.new.arr.length op.lo i h2
  unfold next
  cases snd
  · exact ⟨h1, h2, by omega, fun _ => h3, by rw [← hb.1]; exact h4⟩
  · exact ⟨h1, by omega, by omega, by simp, by rw [← hb.2]; exact h4⟩

theorem waits_next (i e c : Nat) (snd : Bool) : waits (next i e snd) c ↔ pos i snd < c := by
  unfold next
  cases snd <;> simp [waits, pos] <;> omega

theorem pendL_next (i e : Nat) (snd : Bool) : pendL (next i e snd) = false := by
  unfold next; split <;> rfl

theorem LocOk.set {s : Shared} (hn : 0 < s.new.arr.length) {i k' : Nat}
    (h0 : sl s.new.arr i = 0) {op : Chunk} {st : Nat} {l : Loc} (h : LocOk s op st l) :
    LocOk { s with new := { s.new with arr := s.new.arr.set (i % s.new.arr.length) k' } } op st l := by
  cases l <;> simp only [LocOk, List.length_set] at * <;> try exact h
  · obtain ⟨h1, h2, h3, h4, h5, h6, d, h7, h8, h9⟩ := h
    exact ⟨h1, h2, h3, h4, h5, h6, d, h7, h8.set hn h0, h9⟩
  · obtain ⟨h1, h2, h3, h4, h5, h6, d, h7, h8, h9⟩ := h
    exact ⟨h1, h2, h3, h4, h5, h6, d, h7, h8.set hn h0, h9⟩

theorem pos_inj {i i' : Nat} {b b' : Bool} (h : pos i b = pos i' b') : i = i' ∧ b = b' := by
  unfold pos at h
  cases b <;> cases b' <;> simp at h ⊢ <;> omega

/-- A relevant element for half loop body `c`. -/
def Item (s : Shared) (c v : Nat) : Prop :=
  ∃ i snd, c = pos i snd ∧ (src s snd)[i]? = some v ∧ v ≠ 0 ∧ s.F v = false

/-- A step of a task. -/
inductive StepCase (s : Shared) (op : Chunk) (st : Nat) (l : Loc) : Shared → (Loc ⊕ Unit) → Prop where
  | move (l' : Loc) : LocOk s op (st + 1) l' → pendL l' = false → pendL l = false →
      (∀ c v, waits l c → Item s c v → v ∈ s.new.arr ∨ waits l' c) → StepCase s op st l s (.inl l')
  | cas (k d i e j : Nat) (snd : Bool) : l = .cas k j i e snd → k ≠ 0 → (src s snd)[i]? = some k →
      s.F k = false → sl s.new.arr (hash64 s.new.a k + d) = 0 →
      Passed s.new.arr (hash64 s.new.a k) k d →
      e = op.hi → op.lo ≤ i → i < e →
      st ≤ base s.new.arr.length op.lo i snd + 2 + 2 * d →
      StepCase s op st l
        { s with new :=
          { s.new with arr := s.new.arr.set ((hash64 s.new.a k + d) % s.new.arr.length) k } }
        (.inl (.incr i e snd))
  | incr (i e : Nat) (snd : Bool) : l = .incr i e snd → LocOk s op (st + 1) (next i e snd) →
      StepCase s op st l { s with new := { s.new with items := s.new.items + 1 } }
        (.inl (next i e snd))
  | ret (i e : Nat) : l = .read i e false → i = e → e = op.hi → StepCase s op st l s (.inr ())

theorem step_cases {s : Shared} {p : Nat} (hl : s.new.arr.length = 2 ^ p) (hz : 0 ∈ s.new.arr)
    {op : Chunk} {st : Nat} {l : Loc}
    (hA : LocOk s op st l) : ∃ s' out, step s l = some (s', out) ∧ StepCase s op st l s' out := by
  have hn : 0 < s.new.arr.length := by rw [hl]; exact Nat.pow_pos (by omega)
  cases l with
  | read i e snd =>
    obtain ⟨h1, h2, h3, h4, h5⟩ := hA
    simp only [step]
    split
    · rename_i h
      obtain ⟨rfl, h⟩ := h
      exact ⟨_, _, rfl, .ret i e rfl h h1⟩
    · rename_i h
      have hlt : i < e := by
        cases snd
        · have : i ≠ e := fun hx => h ⟨rfl, hx⟩
          omega
        · exact h4 rfl
      have hnext : ∀ (_ : ∀ v, (src s snd)[i]? = some v → ¬ (v ≠ 0 ∧ s.F v = false)),
          StepCase s op st (.read i e snd) s (.inl (next i e snd)) := by
        intro hno
        refine .move _ (LocOk_next h1 h2 hlt (by omega)) (pendL_next ..) rfl ?_
        rintro c v hw ⟨i', snd', rfl, hv, hv0, hF⟩
        right
        rw [waits_next]
        have hw : pos i snd ≤ pos i' snd' := hw
        rcases Nat.lt_or_eq_of_le hw with h6 | h6
        · exact h6
        · obtain ⟨rfl, rfl⟩ := pos_inj h6
          exact absurd ⟨hv0, hF⟩ (hno v hv)
      split
      · rename_i hnone
        exact ⟨_, _, rfl, hnext (by rw [hnone]; simp)⟩
      · rename_i v hv
        split
        · rename_i hc
          refine ⟨_, _, rfl, .move _ ⟨h1, h2, hlt, hc.1, hv, hc.2, 0, rfl,
            fun e he => absurd he (by omega), by omega⟩ rfl rfl (fun c v hw _ => Or.inr hw)⟩
        · rename_i hc
          exact ⟨_, _, rfl, hnext (by rw [hv]; intro v' hv'; injection hv' with hv'; rwa [← hv'])⟩
  | probe k idx i e snd =>
    obtain ⟨h1, h2, hlt, hk0, hsrc, hF, d, h3, h4, h5⟩ := hA
    simp only [step]
    have hd := passed_lt hz h4
    have hsl : sl s.new.arr idx = sl s.new.arr (hash64 s.new.a k + d) := by
      rw [← sl_mod, h3, sl_mod]
    have hget := getElem?_mask hl idx
    have hmask : maskIdx s.new.arr.length idx = idx % s.new.arr.length := by rw [hl, maskIdx_pow]
    rw [hget]
    simp only
    split
    · rename_i hk
      refine ⟨_, _, rfl, .move _ (LocOk_next h1 h2 hlt (by omega)) (pendL_next ..) rfl ?_⟩
      rintro c v hw ⟨i', snd', rfl, hv, hv0, hF'⟩
      have hw : pos i snd ≤ pos i' snd' := hw
      rcases Nat.lt_or_eq_of_le hw with h6 | h6
      · right; rw [waits_next]; exact h6
      · obtain ⟨rfl, rfl⟩ := pos_inj h6
        rw [hsrc] at hv
        injection hv with hv
        left; rw [← hv, ← hk]; exact sl_mem hn _
    · rename_i hk
      split
      · rename_i h0
        refine ⟨_, _, rfl, .move _ ⟨h1, h2, hlt, hk0, hsrc, hF, d + 1, ?_, ?_, by omega⟩ rfl rfl
          (fun c v hw _ => Or.inr hw)⟩
        · rw [hmask, Nat.mod_add_mod, ← Nat.mod_add_mod, h3, Nat.mod_add_mod, Nat.add_assoc]
        · exact passed_succ h4 (by rwa [← hsl]) (by rwa [← hsl])
      · exact ⟨_, _, rfl, .move _ ⟨h1, h2, hlt, hk0, hsrc, hF, d, by rw [hmask, h3], h4, by omega⟩ rfl rfl
          (fun c v hw _ => Or.inr hw)⟩
  | cas k j i e snd =>
    obtain ⟨h1, h2, hlt, hk0, hsrc, hF, d, h3, h4, h5⟩ := hA
    have hd := passed_lt hz h4
    have hi : j < s.new.arr.length := by rw [h3]; exact Nat.mod_lt _ hn
    have hsl : s.new.arr[j] = sl s.new.arr (hash64 s.new.a k + d) := by
      rw [← sl_getElem _ _ hi, h3, sl_mod]
    simp only [step]
    rw [List.getElem?_eq_getElem hi]
    simp only
    split
    · rename_i h0
      rw [hsl] at h0
      refine ⟨_, _, rfl, ?_⟩
      have := StepCase.cas (s := s) (op := op) (st := st) k d i e j snd rfl hk0 hsrc hF h0 h4 h1 h2 hlt h5
      rwa [← h3] at this
    · rename_i h0
      split
      · rename_i hk
        refine ⟨_, _, rfl, .move _ (LocOk_next h1 h2 hlt (by omega)) (pendL_next ..) rfl ?_⟩
        rintro c v hw ⟨i', snd', rfl, hv, hv0, hF'⟩
        have hw : pos i snd ≤ pos i' snd' := hw
        rcases Nat.lt_or_eq_of_le hw with h6 | h6
        · right; rw [waits_next]; exact h6
        · obtain ⟨rfl, rfl⟩ := pos_inj h6
          rw [hsrc] at hv
          injection hv with hv
          left; rw [← hv, ← hk]; exact List.getElem_mem hi
      · rename_i hk
        have hp' := passed_succ h4 (by rwa [← hsl]) (by rwa [← hsl])
        refine ⟨_, _, rfl, .move _ ⟨h1, h2, hlt, hk0, hsrc, hF, d + 1, ?_, hp', by omega⟩ rfl rfl
          (fun c v hw _ => Or.inr hw)⟩
        rw [h3, Nat.mod_add_mod, Nat.add_assoc]
  | incr i e snd =>
    obtain ⟨h1, h2, h3, h4⟩ := hA
    exact ⟨_, _, rfl, .incr i e snd rfl (LocOk_next h1 h2 h3 (by omega))⟩

variable {n : Nat}

/-- The parameters of the merge that do not change. -/
structure Par where
  old : List Nat
  other : List Nat
  F : Nat → Bool
  a : Nat
  p : Nat

/-- The keys the merge has to produce. -/
def Par.keys (P : Par) : Finset Nat :=
  ((P.old ++ P.other).toFinset.erase 0).filter (fun k => P.F k = false)

structure MInv (P : Par) (c : Config n Shared Loc Chunk Unit) : Prop where
  hold : c.sh.old = P.old
  hother : c.sh.other = P.other
  hF : c.sh.F = P.F
  ha : c.sh.new.a = P.a
  len : c.sh.new.arr.length = 2 ^ P.p
  path : PathOk (hash64 P.a) c.sh.new.arr
  cntI : c.sh.new.items + Conc.cnt pend c.th = occ c.sh.new.arr
  pres : ∀ t op, Ev.inv t op ∈ c.hist → ∀ x v, pos op.lo false ≤ x → x < pos op.hi false →
    Item c.sh x v → v ∈ c.sh.new.arr ∨
    ∃ u A, c.th u = some A ∧ A.op = op ∧ waits A.loc x
  sub : ∀ k ∈ c.sh.new.arr, k ≠ 0 → k ∈ P.keys
  loc : ∀ t A, c.th t = some A → LocOk c.sh A.op A.steps A.loc

theorem MInv.zero {P : Par} (hP : P.keys.card < 2 ^ P.p) {c : Config n Shared Loc Chunk Unit}
    (h : MInv P c) : 0 ∈ c.sh.new.arr := by
  apply zero_mem_of_occ_lt
  rw [h.path.occ_eq_card, h.len]
  refine Nat.lt_of_le_of_lt (Finset.card_le_card ?_) hP
  intro x hx
  simp only [Finset.mem_erase, List.mem_toFinset] at hx
  exact h.sub x hx.2 hx.1

theorem item_mem {P : Par} {c : Config n Shared Loc Chunk Unit} (h : MInv P c) {i k : Nat}
    {snd : Bool} (hs : (src c.sh snd)[i]? = some k) (hk : k ≠ 0) (hF : c.sh.F k = false) :
    k ∈ P.keys := by
  unfold Par.keys
  simp only [Finset.mem_filter, Finset.mem_erase, List.mem_toFinset, List.mem_append]
  rw [h.hF] at hF
  refine ⟨⟨hk, ?_⟩, hF⟩
  have := List.mem_of_getElem? hs
  unfold src at this
  cases snd
  · left; rw [← h.hold]; exact this
  · right; rw [← h.hother]; exact this

theorem step_inv {P : Par} (hP : P.keys.card < 2 ^ P.p) {c c' : Config n Shared Loc Chunk Unit}
    (h : MInv P c) (hs : Step obj (fun op => op.lo ≤ op.hi) c c') : MInv P c' := by
  have hpos : 0 < c.sh.new.arr.length := by rw [h.len]; exact Nat.pow_pos (by omega)
  cases hs with
  | call t op hidle hok =>
    have hne : ∀ u A, c.th u = some A → u ≠ t := by
      rintro u A hu rfl
      rw [hidle] at hu; cases hu
    refine ⟨h.hold, h.hother, h.hF, h.ha, h.len, h.path, ?_, ?_, h.sub, ?_⟩
    · simp only
      rw [cnt_update_same (by rw [hidle]; rfl), h.cntI]
    · intro u op' hu x v h1 h2 hi
      simp only [List.mem_append, List.mem_singleton] at hu
      rcases hu with hu | hu
      · rcases h.pres u op' hu x v h1 h2 hi with h4 | ⟨w, A, hw, h4⟩
        · exact Or.inl h4
        · exact Or.inr ⟨w, A, by simp only [Function.update_of_ne (hne w _ hw)]; exact hw, h4⟩
      · simp only [Ev.inv.injEq] at hu
        obtain ⟨rfl, rfl⟩ := hu
        exact Or.inr ⟨u, _, Function.update_self .., rfl, h1⟩
    · intro u A hu
      replace hu := upd_cases hu
      rcases hu with ⟨rfl, hu⟩ | ⟨hut, hu⟩
      · injection hu with hu
        subst hu
        exact ⟨rfl, Nat.le_refl _, hok, by simp, by simp⟩
      · exact h.loc u A hu
  | internal t A s' l' hth hst =>
    have hA := h.loc t A hth
    obtain ⟨s1, out, hs1, hcase⟩ := step_cases h.len (h.zero hP) hA
    rw [show obj.step c.sh A.loc = step c.sh A.loc from rfl, hs1] at hst
    simp only [Option.some.injEq, Prod.mk.injEq] at hst
    obtain ⟨rfl, rfl⟩ := hst
    have hloc : ∀ s', (∀ op st l, LocOk c.sh op st l → LocOk s' op st l) →
        LocOk s' A.op (A.steps + 1) l' →
        ∀ u B, Function.update c.th t (some (⟨A.op, l', A.steps + 1⟩ : Active Loc Chunk)) u = some B →
          LocOk s' B.op B.steps B.loc := by
      intro s' hm hl' u B hu
      replace hu := upd_cases hu
      rcases hu with ⟨rfl, hu⟩ | ⟨hut, hu⟩
      · injection hu with hu
        subst hu
        exact hl'
      · exact hm _ _ _ (h.loc u B hu)
    have hpres : (∀ x v, waits A.loc x → Item c.sh x v → v ∈ c.sh.new.arr ∨ waits l' x) →
        ∀ t' op, Ev.inv t' op ∈ c.hist → ∀ x v, pos op.lo false ≤ x → x < pos op.hi false →
        Item c.sh x v → v ∈ c.sh.new.arr ∨
        ∃ u B, Function.update c.th t (some (⟨A.op, l', A.steps + 1⟩ : Active Loc Chunk)) u = some B ∧
          B.op = op ∧ waits B.loc x := by
      intro hcar t' op hop x v h1 h2 h3
      rcases h.pres t' op hop x v h1 h2 h3 with h4 | ⟨u, B, hu, h4, h5⟩
      · exact Or.inl h4
      · by_cases hut : u = t
        · subst hut
          rw [hth] at hu
          injection hu with hu
          subst hu
          rcases hcar x v h5 h3 with h6 | h6
          · exact Or.inl h6
          · exact Or.inr ⟨u, _, Function.update_self .., h4, h6⟩
        · exact Or.inr ⟨u, B, by rw [Function.update_of_ne hut, hu], h4, h5⟩
    cases hcase with
    | move _ hl' hp1 hp2 hcar =>
      refine ⟨h.hold, h.hother, h.hF, h.ha, h.len, h.path, ?_, hpres hcar, h.sub, ?_⟩
      · simp only
        rw [cnt_update_same (by rw [hth]; simp [pend, hp1, hp2]), h.cntI]
      · exact hloc _ (fun _ _ _ hl => hl) hl'
    | cas k d i e j snd hl hk hki hFk h0 hp h1 h2 h3 hst =>
      have hlt : (hash64 c.sh.new.a k + d) % c.sh.new.arr.length < c.sh.new.arr.length :=
        Nat.mod_lt _ hpos
      have hz : c.sh.new.arr[(hash64 c.sh.new.a k + d) % c.sh.new.arr.length]? = some 0 := by
        rw [List.getElem?_eq_getElem hlt, ← sl_getElem _ _ hlt, sl_mod, h0]
      have hpath := h.path
      rw [← h.ha] at hpath
      have hmem : ∀ x, x ≠ 0 → (x ∈ c.sh.new.arr.set
          ((hash64 c.sh.new.a k + d) % c.sh.new.arr.length) k ↔ x ∈ c.sh.new.arr ∨ x = k) :=
        fun x hx => mem_set_free hlt hz hx
      have hd := passed_lt (h.zero hP) hp
      refine ⟨h.hold, h.hother, h.hF, h.ha, by simpa using h.len, ?_, ?_, ?_, ?_, ?_⟩
      · simp only
        rw [← h.ha]
        exact PathOk.set hpos hpath h0 hp
      · simp only
        rw [occ_set hlt hz hk, cnt_update_add (by rw [hth]; simp [pend, hl, pendL]) rfl, ← h.cntI]
        omega
      · intro t' op hop x v h4 h5 h6
        simp only
        have h6' : Item c.sh x v := h6
        have hv0 : v ≠ 0 := by obtain ⟨_, _, _, _, hv, _⟩ := h6'; exact hv
        rcases h.pres t' op hop x v h4 h5 h6' with h7 | ⟨u, B, hu, h7, h8⟩
        · exact Or.inl ((hmem v hv0).2 (Or.inl h7))
        · by_cases hut : u = t
          · subst hut
            rw [hth] at hu
            injection hu with hu
            subst hu
            rw [hl] at h8
            have h8 : pos i snd ≤ x := h8
            rcases Nat.lt_or_eq_of_le h8 with h9 | h9
            · exact Or.inr ⟨u, _, Function.update_self .., h7, h9⟩
            · obtain ⟨i', snd', hx, hv, _, _⟩ := h6'
              rw [hx] at h9
              obtain ⟨rfl, rfl⟩ := pos_inj h9
              rw [hki] at hv
              injection hv with hv
              exact Or.inl ((hmem v hv0).2 (Or.inr hv.symm))
          · exact Or.inr ⟨u, B, by rw [Function.update_of_ne hut, hu], h7, h8⟩
      · intro x hx hx0
        rcases (hmem x hx0).1 hx with hx | rfl
        · exact h.sub x hx hx0
        · exact item_mem h hki hk hFk
      · refine hloc _ (fun _ _ _ hl => hl.set hpos h0) ?_
        simp only [LocOk, List.length_set]
        exact ⟨h1, h2, h3, by omega⟩
    | incr i e snd hl hl' =>
      refine ⟨h.hold, h.hother, h.hF, h.ha, h.len, h.path, ?_, ?_, h.sub, ?_⟩
      · simp only
        have := cnt_update_sub (p := pend) (f := c.th) (t := t)
          (x := some ⟨A.op, next i e snd, A.steps + 1⟩) (by rw [hth]; simp [pend, hl, pendL])
          (by simp [pend, pendL_next])
        have := h.cntI
        omega
      · refine hpres (fun x v hw _ => Or.inr ?_)
        rw [waits_next]
        rw [hl] at hw
        exact hw
      · refine hloc _ (fun op st l hl => ?_) ?_
        · cases l <;> exact hl
        · revert hl'
          cases next i e snd <;> exact id
  | ret t A s' r hth hst =>
    have hA := h.loc t A hth
    obtain ⟨s1, out, hs1, hcase⟩ := step_cases h.len (h.zero hP) hA
    rw [show obj.step c.sh A.loc = step c.sh A.loc from rfl, hs1] at hst
    simp only [Option.some.injEq, Prod.mk.injEq] at hst
    obtain ⟨rfl, rfl⟩ := hst
    cases hcase with
    | ret i e hl hie heh =>
      refine ⟨h.hold, h.hother, h.hF, h.ha, h.len, h.path, ?_, ?_, h.sub, ?_⟩
      · simp only
        rw [cnt_update_same (by rw [hth]; simp [pend, hl, pendL]), h.cntI]
      · intro u op hu x v h1 h2 h3
        have hu : Ev.inv u op ∈ c.hist := by simpa using hu
        rcases h.pres u op hu x v h1 h2 h3 with h4 | ⟨w, B, hw, h4, h5⟩
        · exact Or.inl h4
        · by_cases hwt : w = t
          · subst hwt
            rw [hth] at hw
            injection hw with hw
            subst hw
            exfalso
            rw [hl] at h5
            have h5 : pos i false ≤ x := h5
            rw [hie, heh, h4] at h5
            omega
          · exact Or.inr ⟨w, B, by simp only; rw [Function.update_of_ne hwt, hw], h4, h5⟩
      · intro u B hu
        replace hu := upd_cases hu
        rcases hu with ⟨rfl, hu⟩ | ⟨hut, hu⟩
        · cases hu
        · exact h.loc u B hu

theorem init_inv (old other : ConcSet.Shared) (F : Nat → Bool) (q : Nat) :
    MInv ⟨old.arr, other.arr, F, old.a, q⟩ (Config.init n (init old other F (2 ^ q))) where
  hold := rfl
  hother := rfl
  hF := rfl
  ha := rfl
  len := by simp [Config.init, init]
  path := pathOk_replicate _ _
  cntI := by
    simp only [Config.init, init]
    rw [occ_replicate, cnt_eq_zero (fun t => rfl)]
  pres := by simp [Config.init]
  sub := by
    intro k hk h0
    exact absurd (List.mem_replicate.1 hk).2 h0
  loc := by simp [Config.init]

theorem reach_inv {old other : ConcSet.Shared} {F : Nat → Bool} {q : Nat}
    (hP : (Par.mk old.arr other.arr F old.a q).keys.card < 2 ^ q)
    {c : Config n Shared Loc Chunk Unit}
    (h : Reach obj (fun op => op.lo ≤ op.hi) (init old other F (2 ^ q)) c) :
    MInv ⟨old.arr, other.arr, F, old.a, q⟩ c :=
  h.induct (init_inv old other F q) (fun _ _ _ hi hs => step_inv hP hi hs)

theorem card_keys_le (old other : List Nat) (F : Nat → Bool) (a q : Nat) :
    (Par.mk old other F a q).keys.card ≤ occ old + occ other := by
  have h : ∀ l : List Nat, (l.toFinset.erase 0).card ≤ occ l := by
    intro l
    have : l.toFinset.erase 0 = (l.filter (fun x => x != 0)).toFinset := by
      ext x
      simp [and_comm]
    rw [this]
    refine (List.toFinset_card_le _).trans ?_
    rw [occ, List.countP_eq_length_filter]
  have h2 : (Par.mk old other F a q).keys ⊆ old.toFinset.erase 0 ∪ other.toFinset.erase 0 := by
    intro x hx
    unfold Par.keys at hx
    simp only [Finset.mem_filter, Finset.mem_erase, List.mem_toFinset, List.mem_append,
      Finset.mem_union] at hx ⊢
    tauto
  have h3 := Finset.card_le_card h2
  have h4 := Finset.card_union_le (old.toFinset.erase 0) (other.toFinset.erase 0)
  have := h old
  have := h other
  omega

end BulkMerge
end Verif
