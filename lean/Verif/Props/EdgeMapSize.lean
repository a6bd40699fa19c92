import Verif.Lemmas.MustGrow
import Verif.Props.GrowingMap
import Verif.Props.SampleGraph
import Mathlib.Algebra.BigOperators.Group.Finset.Basic
import Mathlib.Algebra.Order.BigOperators.Group.Finset

/-!
# The edge map of makeGraph and its growth: C107
-/
namespace Verif
namespace Samp
open Conc
open GrowingMap (Op calledKeys Execution)
open ConcMap (MapRet)

/-- The keys that the first loop of `makeGraph` passes to `insert`. -/
def edgeKeys (D : Nat) (ids : List Nat) (S : List (List Nat)) : List Nat :=
  (S.flatMap (pairs D (translation ids) fun _ _ => 0)).map fun e => key e.1 e.2.1

/-- **C107 (whatever is inserted).** If more different keys are inserted than half the number of slots of the first
table plus the number of threads minus one, the table has grown when all insertions have returned. -/
theorem C107_grows (junk : Nat → Nat) (a size m n : Nat) (hs : 1 ≤ size)
    (c : Config n GrowingMap.Shared GrowingMap.Loc Op MapRet) (h : Execution junk a size m c) (hq : c.quiescent)
    (hc : nextPow2 size / 2 - 1 + n < (calledKeys c.hist).toFinset.card) : 2 ≤ c.sh.tabs.length := by
  obtain ⟨p, hp⟩ := nextPow2_isPow hs
  rcases GrowingMap.one_or_more hp h with h2 | ⟨tb, h2⟩
  · exact h2
  · exfalso
    have h3 := h2.cnt
    rw [cnt_eq_zero (fun t => by rw [hq t]; rfl)] at h3
    have h4 := h2.bound
    rw [hp] at hc
    have h5 : (calledKeys c.hist).toFinset ⊆ (tb.t.keys.filter (fun x => x != 0)).toFinset := by
      intro k hk
      rw [List.mem_toFinset] at hk
      obtain ⟨e, he, hek⟩ := List.mem_filterMap.1 hk
      cases e with
      | res t o r => cases hek
      | inv t o =>
        injection hek with hek
        subst hek
        obtain ⟨r, hr⟩ := GrowingMap.returned h hq he
        have := h2.res t o r hr
        exact List.mem_toFinset.2 (List.mem_filter.2 ⟨this.2, by simpa using this.1⟩)
    have h6 := (Finset.card_le_card h5).trans (List.toFinset_card_le _)
    have h7 : occ tb.t.keys = (tb.t.keys.filter (fun x => x != 0)).length := by
      unfold occ
      rw [List.countP_eq_length_filter]
    omega

/-- The triangles of a triangulation of points in the plane: every triangle has three different vertices, at most one
of them is infinite, and every two points belong to at most two triangles. -/
structure PlaneOk (S : List (List Nat)) : Prop where
  three : ∀ vs ∈ S, vs.length = 3 ∧ vs.Nodup
  inf : ∀ vs ∈ S, vs.countP (fun p => !Part.isFinite 2 p) ≤ 1
  two : ∀ p q, p ≠ q → S.countP (fun vs => decide (p ∈ vs ∧ q ∈ vs)) ≤ 2

/-- The number of triangles without an infinite vertex. -/
def finTris (S : List (List Nat)) : Nat := S.countP fun vs => vs.all (Part.isFinite 2)

/-- The number of triangles with an infinite vertex. -/
def infTris (S : List (List Nat)) : Nat := S.countP fun vs => !vs.all (Part.isFinite 2)

theorem length_le_two_card {l : List Nat} (h : ∀ x, l.count x ≤ 2) : l.length ≤ 2 * l.toFinset.card := by
  rw [← List.sum_toFinset_count_eq_length, mul_comm, ← smul_eq_mul]
  exact Finset.sum_le_card_nsmul _ _ _ fun x _ => h x

theorem ix_lt {ids : List Nat} {p : Nat} (hp : p ∈ ids) : ix (translation ids) p < ids.length := by
  unfold ix translation
  rw [if_pos hp]
  exact List.idxOf_lt_length_of_mem hp

theorem ix_inj {ids : List Nat} {p q : Nat} (hp : p ∈ ids) (hq : q ∈ ids)
    (h : ix (translation ids) p = ix (translation ids) q) : p = q := by
  unfold ix translation at h
  rw [if_pos hp, if_pos hq] at h
  exact (List.idxOf_inj hp).1 h

/-- The keys of one triangle. -/
def triKeys (ids vs : List Nat) : List Nat :=
  (pairs 2 (translation ids) (fun _ _ => 0) vs).map fun e => key e.1 e.2.1

theorem edgeKeys_eq (ids : List Nat) (S : List (List Nat)) : edgeKeys 2 ids S = S.flatMap (triKeys ids) := by
  unfold edgeKeys triKeys
  rw [List.map_flatMap]

theorem triKeys_mem {ids vs : List Nat} {x : Nat} (hv : ∀ p ∈ vs, p ∈ ids ∨ Part.isFinite 2 p = false)
    (h : x ∈ triKeys ids vs) : ∃ p ∈ vs, ∃ q ∈ vs, p ∈ ids ∧ q ∈ ids ∧ p ≠ q ∧
      x = key (ix (translation ids) p) (ix (translation ids) q) := by
  unfold triKeys pairs at h
  obtain ⟨e, he, rfl⟩ := List.mem_map.1 h
  obtain ⟨p, hp, he⟩ := List.mem_flatMap.1 he
  split at he
  · rename_i hpf
    obtain ⟨q, hq, he⟩ := List.mem_filterMap.1 he
    split at he
    · rename_i hqf
      simp only [Bool.and_eq_true, bne_iff_ne] at hqf
      injection he with he
      subst he
      refine ⟨p, hp, q, hq, ?_, ?_, fun h => hqf.2 (by rw [h]), rfl⟩
      · rcases hv p hp with h | h
        · exact h
        · rw [hpf] at h; cases h
      · rcases hv q hq with h | h
        · exact h
        · rw [hqf.1] at h; cases h
    · cases he
  · cases he

theorem triKeys_spec {ids vs : List Nat} (hn : ids.length ≤ 2 ^ 32) (h3 : vs.length = 3) (hnd : vs.Nodup)
    (hinf : vs.countP (fun p => !Part.isFinite 2 p) ≤ 1)
    (hv : ∀ p ∈ vs, p ∈ ids ∨ Part.isFinite 2 p = false) :
    (triKeys ids vs).Nodup ∧ (triKeys ids vs).length = if vs.all (Part.isFinite 2) then 6 else 2 := by
  match vs, h3 with
  | [a, b, c], _ =>
  have hab : a ≠ b := by rintro rfl; simp at hnd
  have hac : a ≠ c := by rintro rfl; simp at hnd
  have hbc : b ≠ c := by rintro rfl; simp at hnd
  have hk : ∀ p q, p ∈ ids → q ∈ ids → key (ix (translation ids) p) (ix (translation ids) q) =
      ix (translation ids) p * 2 ^ 32 + ix (translation ids) q := fun p q hp hq =>
    key_eq ((ix_lt hp).trans_le hn) ((ix_lt hq).trans_le hn)
  have hne : ∀ p q, p ∈ ids → q ∈ ids → p ≠ q → ix (translation ids) p ≠ ix (translation ids) q :=
    fun p q hp hq h he => h (ix_inj hp hq he)
  have hlt : ∀ p, p ∈ ids → ix (translation ids) p < 2 ^ 32 := fun p hp => (ix_lt hp).trans_le hn
  have hva := hv a (by simp)
  have hvb := hv b (by simp)
  have hvc := hv c (by simp)
  cases fa : Part.isFinite 2 a <;> cases fb : Part.isFinite 2 b <;> cases fc : Part.isFinite 2 c <;>
    simp only [fa, fb, fc, List.countP_cons, List.countP_nil] at hinf <;>
    first
      | (exfalso; revert hinf; decide)
      | skip
  all_goals
    rw [fa] at hva
    rw [fb] at hvb
    rw [fc] at hvc
  · replace hvb : b ∈ ids := by simpa using hvb
    replace hvc : c ∈ ids := by simpa using hvc
    have e1 := hne b c hvb hvc hbc
    have := hlt b hvb
    have := hlt c hvc
    simp [triKeys, pairs, fa, fb, fc, e1, e1.symm, hk b c hvb hvc, hk c b hvc hvb]
    omega
  · replace hva : a ∈ ids := by simpa using hva
    replace hvc : c ∈ ids := by simpa using hvc
    have e1 := hne a c hva hvc hac
    have := hlt a hva
    have := hlt c hvc
    simp [triKeys, pairs, fa, fb, fc, e1, e1.symm, hk a c hva hvc, hk c a hvc hva]
    omega
  · replace hva : a ∈ ids := by simpa using hva
    replace hvb : b ∈ ids := by simpa using hvb
    have e1 := hne a b hva hvb hab
    have := hlt a hva
    have := hlt b hvb
    simp [triKeys, pairs, fa, fb, fc, e1, e1.symm, hk a b hva hvb, hk b a hvb hva]
    omega
  · replace hva : a ∈ ids := by simpa using hva
    replace hvb : b ∈ ids := by simpa using hvb
    replace hvc : c ∈ ids := by simpa using hvc
    have e1 := hne a b hva hvb hab
    have e2 := hne a c hva hvc hac
    have e3 := hne b c hvb hvc hbc
    have := hlt a hva
    have := hlt b hvb
    have := hlt c hvc
    simp [triKeys, pairs, fa, fb, fc, e1, e1.symm, e2, e2.symm, e3, e3.symm, hk a b hva hvb, hk b a hvb hva,
      hk a c hva hvc, hk c a hvc hva, hk b c hvb hvc, hk c b hvc hvb]
    omega

/-- Every pair of points belongs to at most two triangles, so many keys are different. -/
theorem edgeKeys_card {ids : List Nat} {S : List (List Nat)} (h : SampleOk 2 ids S) (hp : PlaneOk S)
    (hn : ids.length ≤ 2 ^ 32) : 3 * finTris S + infTris S ≤ (edgeKeys 2 ids S).toFinset.card := by
  have h1 : (edgeKeys 2 ids S).length = 6 * finTris S + 2 * infTris S := by
    rw [edgeKeys_eq]
    have : ∀ vs ∈ S, (triKeys ids vs).length = if vs.all (Part.isFinite 2) then 6 else 2 := fun vs hvs =>
      (triKeys_spec hn (hp.three vs hvs).1 (hp.three vs hvs).2 (hp.inf vs hvs) (h.verts vs hvs)).2
    clear h hp
    unfold finTris infTris
    induction S with
    | nil => rfl
    | cons vs S ih =>
      rw [List.flatMap_cons, List.length_append, ih (fun v hv => this v (List.mem_cons_of_mem _ hv)),
        this vs (List.mem_cons_self ..), List.countP_cons, List.countP_cons]
      cases vs.all (Part.isFinite 2) <;> simp <;> omega
  have h2 : ∀ x, (edgeKeys 2 ids S).count x ≤ 2 := by
    intro x
    by_cases hx : x ∈ edgeKeys 2 ids S
    · rw [edgeKeys_eq] at hx ⊢
      obtain ⟨vs, hvs, hx'⟩ := List.mem_flatMap.1 hx
      obtain ⟨p, _, q, _, hpi, hqi, hpq, rfl⟩ := triKeys_mem (h.verts vs hvs) hx'
      refine le_trans ?_ (hp.two p q hpq)
      have hle : ∀ vs ∈ S, (triKeys ids vs).count (key (ix (translation ids) p) (ix (translation ids) q)) ≤
          if p ∈ vs ∧ q ∈ vs then 1 else 0 := by
        intro vs hvs
        by_cases hm : key (ix (translation ids) p) (ix (translation ids) q) ∈ triKeys ids vs
        · obtain ⟨p', hp', q', hq', hpi', hqi', _, he⟩ := triKeys_mem (h.verts vs hvs) hm
          rw [key_eq ((ix_lt hpi).trans_le hn) ((ix_lt hqi).trans_le hn),
            key_eq ((ix_lt hpi').trans_le hn) ((ix_lt hqi').trans_le hn)] at he
          have b1 := (ix_lt hqi).trans_le hn
          have b2 := (ix_lt hqi').trans_le hn
          have e1 : p = p' := ix_inj hpi hpi' (by omega)
          have e2 : q = q' := ix_inj hqi hqi' (by omega)
          subst e1 e2
          rw [if_pos ⟨hp', hq'⟩]
          exact List.nodup_iff_count_le_one.1
            (triKeys_spec hn (hp.three vs hvs).1 (hp.three vs hvs).2 (hp.inf vs hvs) (h.verts vs hvs)).1 _
        · rw [List.count_eq_zero_of_not_mem hm]
          exact Nat.zero_le _
      clear h hp hvs h1 hx hx'
      induction S with
      | nil => simp
      | cons v S ih =>
        have i1 := ih (fun v hv => hle v (List.mem_cons_of_mem _ hv))
        have i2 := hle v (List.mem_cons_self ..)
        rw [List.flatMap_cons, List.count_append, List.countP_cons]
        by_cases hc : p ∈ v ∧ q ∈ v
        · rw [if_pos hc] at i2
          simp only [hc, and_self, decide_true, if_true]
          omega
        · rw [if_neg hc] at i2
          simp only [hc, decide_false, Bool.false_eq_true, if_false]
          omega
    · rw [List.count_eq_zero_of_not_mem hx]
      omega
  have h3 := length_le_two_card h2
  omega

theorem nextPow2_lt {x : Nat} (hx : 2 ≤ x) : nextPow2 x < 2 * x := by
  rw [nextPow2_pos (by omega)]
  have h1 := Nat.pow_pred_clog_lt_self (b := 2) (by omega) (x := x) (by omega)
  have h2 : 0 < Nat.clog 2 x := Nat.clog_pos (by omega) hx
  obtain ⟨k, hk⟩ : ∃ k, Nat.clog 2 x = k + 1 := ⟨Nat.clog 2 x - 1, by omega⟩
  rw [hk] at h1 ⊢
  simp only [Nat.pred_succ] at h1
  rw [pow_succ]
  omega

/-- **C107 (partial).** If the bounds of the ids are so large that half the number of slots exceeds the number of pairs
of vertices of the simplices (the ids of later triangulations of a process are larger), the edge map does not
grow, whatever the schedule. -/
theorem C107_partial (junk : Nat → Nat) (a m n D lower upper : Nat) {ids : List Nat} {S : List (List Nat)}
    (hD : ∀ vs ∈ S, vs.length = D + 1) (hs : (D + 1) ^ 2 * S.length < nextPow2 (edgeMapSize D lower upper) / 2)
    (c : Config n GrowingMap.Shared GrowingMap.Loc Op MapRet)
    (hc : Execution junk a (edgeMapSize D lower upper) m c)
    (hall : ∀ k ∈ calledKeys c.hist, k ∈ edgeKeys D ids S) : c.sh.tabs.length = 1 := by
  have h1 : 1 ≤ edgeMapSize D lower upper := by
    by_contra h0
    rw [show edgeMapSize D lower upper = 0 by omega] at hs
    simp [nextPow2] at hs
  have h2 : (calledKeys c.hist).toFinset.card ≤ (edgeKeys D ids S).length :=
    (Finset.card_le_card fun k hk => List.mem_toFinset.2 (hall k (List.mem_toFinset.1 hk))).trans
      (List.toFinset_card_le _)
  have h3 : (edgeKeys D ids S).length ≤ (D + 1) ^ 2 * S.length := by
    unfold edgeKeys
    rw [List.length_map]
    clear hs hall h2
    induction S with
    | nil => simp
    | cons vs S ih =>
      have i1 := ih fun v hv => hD v (List.mem_cons_of_mem _ hv)
      have i2 := hD vs (List.mem_cons_self ..)
      have i3 : (pairs D (translation ids) (fun _ _ => 0) vs).length ≤ (D + 1) ^ 2 := by
        unfold pairs
        rw [List.length_flatMap, pow_two]
        refine (List.sum_le_card_nsmul _ (D + 1) ?_).trans ?_
        · intro x hx
          obtain ⟨p, _, rfl⟩ := List.mem_map.1 hx
          split
          · exact (List.length_filterMap_le _ _).trans (le_of_eq i2)
          · exact Nat.zero_le _
        · rw [List.length_map, i2, smul_eq_mul]
      rw [List.flatMap_cons, List.length_append, List.length_cons, Nat.mul_add, Nat.mul_one]
      omega
  obtain ⟨tb, h4, _⟩ := GrowingMap.C106_no_growth junk a _ m n h1 c hc (by omega)
  rw [h4]
  rfl

/-- An execution that meets the hypotheses: the edge of a triangle with id 20 is inserted. -/
example : ∃ c : Config 1 GrowingMap.Shared GrowingMap.Loc Op MapRet,
    (2 + 1) ^ 2 * [[0, 1, 2]].length < nextPow2 (edgeMapSize 2 20 21) / 2 ∧
    Execution (fun _ => 0) 1 (edgeMapSize 2 20 21) 1 c ∧
    c.hist = [.inv 0 ⟨0, 1, 7⟩, .res 0 ⟨0, 1, 7⟩ (.bool true)] ∧
    ∀ k ∈ calledKeys c.hist, k ∈ edgeKeys 2 [0, 1, 2] [[0, 1, 2]] := by
  obtain ⟨c, h1, h2⟩ := exec_hist (n := 1) (s0 := GrowingMap.new (fun _ => 0) 1 (edgeMapSize 2 20 21) 1)
    (o := GrowingMap.obj) (ok := fun o => decide (o.k ≠ 0 ∧ o.h < 1)) (ok' := fun o => o.k ≠ 0 ∧ o.h < 1)
    (fun _ h => by simpa using h) (l := .call 0 ⟨0, 1, 7⟩ :: List.replicate 6 (.run 0))
    (h := [.inv 0 ⟨0, 1, 7⟩, .res 0 ⟨0, 1, 7⟩ (.bool true)]) (by decide +kernel)
  refine ⟨c, by decide +kernel, h1, h2, ?_⟩
  rw [h2]
  decide +kernel

/-- **C107 is violated**: the edge map of the first triangulation of a process (its simplices have the ids 1, 2, …
without gaps) always grows in the plane if the triangulation has as many finite triangles as infinite triangles
and threads: when every edge has been inserted and all insertions have returned, there are at least two tables. -/
theorem C107_violated (junk : Nat → Nat) (a m n : Nat) {ids : List Nat} {S : List (List Nat)}
    (h : SampleOk 2 ids S) (hp : PlaneOk S) (hn : ids.length ≤ 2 ^ 32)
    (hT : infTris S + n ≤ finTris S) (h0 : S ≠ [])
    (c : Config n GrowingMap.Shared GrowingMap.Loc Op MapRet)
    (hc : Execution junk a (edgeMapSize 2 1 (1 + S.length)) m c) (hq : c.quiescent)
    (hall : ∀ k ∈ edgeKeys 2 ids S, k ∈ calledKeys c.hist) : 2 ≤ c.sh.tabs.length := by
  have hS : S.length = finTris S + infTris S := by
    unfold finTris infTris
    rw [List.length_eq_countP_add_countP (fun vs : List Nat => vs.all (Part.isFinite 2))]
    congr 2
    funext vs
    cases vs.all (Part.isFinite 2) <;> rfl
  have hl : 0 < S.length := List.length_pos_iff.2 h0
  have hsz : edgeMapSize 2 1 (1 + S.length) = 2 * S.length + 1 := by unfold edgeMapSize; omega
  rw [hsz] at hc
  refine C107_grows junk a _ m n (by omega) c hc hq ?_
  have h1 := edgeKeys_card h hp hn
  have h2 : (edgeKeys 2 ids S).toFinset.card ≤ (calledKeys c.hist).toFinset.card :=
    Finset.card_le_card fun k hk => List.mem_toFinset.2 (hall k (List.mem_toFinset.1 hk))
  have h3 := nextPow2_lt (x := 2 * S.length + 1) (by omega)
  omega

/-- A sample triangulation: the hull is the triangle 0, 1, 2, the points 3 and 4 are inside. -/
def exTris : List (List Nat) :=
  [[0, 1, 3], [1, 2, 4], [0, 2, 4], [0, 3, 4], [1, 3, 4], [0, 1, Part.cINF 2], [1, 2, Part.cINF 2], [0, 2, Part.cINF 2]]

/-- The number of steps of the insertions of its edges by one thread. -/
def exSteps : List Nat :=
  [6, 6, 6, 7, 8, 10, 10, 9, 13, 11, 15, 15, 16, 15, 20, 9, 21, 262, 4, 13, 6, 18, 19, 20, 5, 7, 8, 16, 13, 18, 4, 4, 8,
    11, 14, 18]

/-- The hypotheses of the violation are met: one thread inserts all edges of a triangulation with five finite and three
infinite triangles. -/
example : ∃ c : Config 1 GrowingMap.Shared GrowingMap.Loc Op MapRet, SampleOk 2 [0, 1, 2, 3, 4] exTris ∧
    PlaneOk exTris ∧ infTris exTris + 1 ≤ finTris exTris ∧
    Execution (fun _ => 0) 1 (edgeMapSize 2 1 (1 + exTris.length)) 1 c ∧ c.quiescent ∧
    ∀ k ∈ edgeKeys 2 [0, 1, 2, 3, 4] exTris, k ∈ calledKeys c.hist := by
  have hx : (exec GrowingMap.obj (fun o => decide (o.k ≠ 0 ∧ o.h < 1))
      (Config.init 1 (GrowingMap.new (fun _ => 0) 1 (edgeMapSize 2 1 (1 + exTris.length)) 1))
      (((edgeKeys 2 [0, 1, 2, 3, 4] exTris).zip exSteps).flatMap fun x =>
        .call 0 ⟨0, x.1, 1⟩ :: List.replicate x.2 (.run 0))).map
        (fun c => (decide (calledKeys c.hist = edgeKeys 2 [0, 1, 2, 3, 4] exTris), (c.th 0).isNone)) =
      some (true, true) := by
    kernel_rfl
  cases hc : exec GrowingMap.obj (fun o => decide (o.k ≠ 0 ∧ o.h < 1))
      (Config.init 1 (GrowingMap.new (fun _ => 0) 1 (edgeMapSize 2 1 (1 + exTris.length)) 1))
      (((edgeKeys 2 [0, 1, 2, 3, 4] exTris).zip exSteps).flatMap fun x =>
        .call 0 ⟨0, x.1, 1⟩ :: List.replicate x.2 (.run 0)) with
  | none => rw [hc] at hx; cases hx
  | some c =>
    rw [hc] at hx
    simp only [Option.map_some, Option.some.injEq, Prod.mk.injEq, decide_eq_true_eq,
      Option.isNone_iff_eq_none] at hx
    refine ⟨c, ⟨by decide, by decide +kernel, by decide +kernel⟩, ⟨by decide +kernel, by decide +kernel, ?_⟩, by decide +kernel,
      reach_mono (fun o h => by simpa using h) (exec_reach .init hc), fun t => ?_, fun k hk => by rw [hx.1]; exact hk⟩
    · intro p q hpq
      have hV : ∀ vs ∈ exTris, ∀ p ∈ vs, p ∈ [0, 1, 2, 3, 4, Part.cINF 2] := by decide +kernel
      have h2 : ∀ p ∈ [0, 1, 2, 3, 4, Part.cINF 2], ∀ q ∈ [0, 1, 2, 3, 4, Part.cINF 2], p ≠ q →
          exTris.countP (fun vs => decide (p ∈ vs ∧ q ∈ vs)) ≤ 2 := by decide +kernel
      by_cases hm : exTris.countP (fun vs => decide (p ∈ vs ∧ q ∈ vs)) = 0
      · omega
      · obtain ⟨vs, hvs, hpv⟩ := List.countP_pos_iff.1 (Nat.pos_of_ne_zero hm)
        simp only [decide_eq_true_eq] at hpv
        exact h2 p (hV vs hvs p hpv.1) q (hV vs hvs q hpv.2) hpq
    · rw [Subsingleton.elim t 0]
      exact hx.2

end Samp
end Verif
