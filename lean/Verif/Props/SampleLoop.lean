import Verif.Model.SampleLoop
import Verif.Props.SampleGraphAll
import Verif.Props.GrowingMap

/-!
# C108: the graph of a sample, with the edge map of the code
-/
namespace Verif
namespace Samp
open Conc
open ConcMap (MapRet)
open GrowingMap (insertedKeys calledKeys)

variable {T : Nat}

/-- Number of the edges acknowledged as new with source `i`. -/
def acks (h : List (Ev T GrowingMap.Op MapRet)) (i : Nat) : Nat :=
  (insertedKeys h).countP fun k => (unkey k).1 == i

theorem insertedKeys_append (h h' : List (Ev T GrowingMap.Op MapRet)) :
    insertedKeys (h ++ h') = insertedKeys h ++ insertedKeys h' := by
  induction h with
  | nil => rfl
  | cons e h ih =>
    rw [List.cons_append]
    cases e with
    | inv => simpa [insertedKeys] using ih
    | res t o r =>
      cases r with
      | bool b => cases b <;> simp [insertedKeys, ih]
      | _ => simpa [insertedKeys] using ih

/-- The operation that inserts an edge. -/
def opOf (t : Fin T) (e : Edge) : GrowingMap.Op := ⟨t, key e.1 e.2.1, e.2.2.toNat⟩

/-- Invariant of the first loop. -/
structure LInv (junk : Nat → Nat) (ha msize n : Nat) (all : List Edge) (s : Loop T) : Prop where
  exec : GrowingMap.Execution junk ha msize T s.c
  len : s.recs.length = n + 1
  zero : s.recs[0]? = some 0
  todo : ∀ t, ∀ e ∈ s.todo t, e ∈ all
  call : ∀ t o, Ev.inv t o ∈ s.c.hist → ∃ e ∈ all, o = opOf t e
  left : ∀ e ∈ all, (∃ t, e ∈ s.todo t) ∨ ∃ t, Ev.inv t (opOf t e) ∈ s.c.hist
  th : ∀ t a, s.c.th t = some a → s.inc t = none ∧ ∃ e ∈ all, a.op = opOf t e ∧ s.cur t = e.1
  inc : ∀ t i, s.inc t = some i → i < n
  count : ∀ i, i < n → ∃ c, s.recs[i + 1]? = some c ∧
    c + (∑ t, if s.inc t = some i then 1 else 0) = acks s.c.hist i

theorem LInv.init {junk : Nat → Nat} {ha msize n : Nat} {work : Fin T → List Edge} :
    LInv junk ha msize n (List.ofFn work).flatten (Loop.init junk ha msize n work) where
  exec := Reach.init
  len := by simp [Loop.init]
  zero := by simp [Loop.init]
  todo := fun t e he => List.mem_flatten.mpr ⟨work t, (List.mem_ofFn' _ _).mpr ⟨t, rfl⟩, he⟩
  call := by simp [Loop.init, Config.init]
  left := by
    intro e he
    obtain ⟨l, hl, he⟩ := List.mem_flatten.mp he
    obtain ⟨t, rfl⟩ := (List.mem_ofFn' _ _).mp hl
    exact Or.inl ⟨t, he⟩
  th := by simp [Loop.init, Config.init]
  inc := by simp [Loop.init]
  count := by
    intro i hi
    exact ⟨0, by simp [Loop.init, hi], by simp [Loop.init, Config.init, acks, insertedKeys]⟩

/-- What is assumed about the edges. -/
structure MapEdges (n : Nat) (all : List Edge) : Prop where
  n32 : n ≤ 2 ^ 32
  src : ∀ e ∈ all, e.1 < n
  dst : ∀ e ∈ all, e.2.1 < n
  ne : ∀ e ∈ all, e.1 ≠ e.2.1

theorem MapEdges.unkey {n : Nat} {all : List Edge} (ho : MapEdges n all) {e : Edge} (he : e ∈ all) :
    unkey (key e.1 e.2.1) = (e.1, e.2.1) := by
  have h1 := ho.src e he
  have h2 := ho.dst e he
  have h3 := ho.n32
  exact unkey_key (by omega) (by omega)

theorem MapEdges.key_ne {n : Nat} {all : List Edge} (ho : MapEdges n all) {e : Edge} (he : e ∈ all) :
    key e.1 e.2.1 ≠ 0 := by
  intro h
  have h1 := ho.unkey he
  rw [h] at h1
  have h2 : Samp.unkey 0 = (0, 0) := rfl
  rw [h2] at h1
  obtain ⟨h3, h4⟩ := Prod.mk.inj h1
  exact ho.ne e he (h3.symm.trans h4)

theorem acks_inv (h : List (Ev T GrowingMap.Op MapRet)) (t : Fin T) (o : GrowingMap.Op) (i : Nat) :
    acks (h ++ [.inv t o]) i = acks h i := by
  simp [acks, insertedKeys_append, insertedKeys]

theorem acks_true (h : List (Ev T GrowingMap.Op MapRet)) (t : Fin T) (o : GrowingMap.Op) (i : Nat) :
    acks (h ++ [.res t o (.bool true)]) i = acks h i + if (unkey o.k).1 = i then 1 else 0 := by
  simp [acks, insertedKeys_append, insertedKeys, List.countP_append, List.countP_cons]

theorem acks_else (h : List (Ev T GrowingMap.Op MapRet)) (t : Fin T) (o : GrowingMap.Op) (r : MapRet) (hr : r ≠ .bool true)
    (i : Nat) : acks (h ++ [.res t o r]) i = acks h i := by
  cases r with
  | bool b => cases b <;> simp_all [acks, insertedKeys_append, insertedKeys]
  | _ => simp [acks, insertedKeys_append, insertedKeys]

theorem LInv.step {junk : Nat → Nat} {ha msize n : Nat} {all : List Edge} (ho : MapEdges n all) {s s' : Loop T}
    (h : LInv junk ha msize n all s) (hs : s.Step s') : LInv junk ha msize n all s' := by
  obtain ⟨t, ht⟩ := hs
  unfold Loop.next at ht
  split at ht
  · rename_i i hi
    split at ht
    · injection ht with ht
      subst ht
      have hin := h.inc t i hi
      refine ⟨h.exec, by simpa using h.len, ?_, h.todo, h.call, h.left, fun u a hu => ?_, fun u j hu => ?_, fun j hj => ?_⟩
      · simp only [List.getElem?_modify]
        rw [h.zero]
        simp
      · obtain ⟨h1, h2⟩ := h.th u a hu
        refine ⟨?_, h2⟩
        simp only [Function.update_apply]
        split
        · rfl
        · exact h1
      · simp only [Function.update_apply] at hu
        split at hu
        · cases hu
        · exact h.inc u j hu
      · obtain ⟨c, c1, c2⟩ := h.count j hj
        rw [sum_clear hi j] at c2
        simp only [List.getElem?_modify]
        rw [c1]
        by_cases e : i = j
        · subst e
          refine ⟨c + 1, by simp, ?_⟩
          rw [if_pos rfl] at c2
          rw [← c2, Nat.add_assoc, Nat.add_comm 1]
        · refine ⟨c, by simp [e], ?_⟩
          rw [if_neg e, Nat.add_zero] at c2
          rw [← c2]
    · cases ht
  · rename_i hi
    split at ht
    · rename_i a hth
      obtain ⟨_, e, he, hop, hcur⟩ := h.th t a hth
      split at ht
      · cases ht
      · rename_i sh l hst
        injection ht with ht
        subst ht
        refine ⟨Reach.step h.exec (Step.internal s.c t a sh l hth hst), h.len, h.zero, h.todo, h.call, h.left,
          fun u b hu => ?_, h.inc, h.count⟩
        rcases ConcMap.upd_cases hu with ⟨rfl, hx⟩ | ⟨_, hx⟩
        · injection hx with hx
          subst hx
          exact ⟨hi, e, he, hop, hcur⟩
        · exact h.th u b hx
      · rename_i sh r hst
        injection ht with ht
        subst ht
        have hex := Reach.step h.exec (Step.ret s.c t a sh r hth hst)
        have hcall : ∀ u o, Ev.inv u o ∈ s.c.hist ++ [.res t a.op r] → ∃ e ∈ all, o = opOf u e :=
          fun u o hu => h.call u o (by simpa using hu)
        have hall : ∀ e ∈ all, (∃ t, e ∈ s.todo t) ∨ ∃ u, Ev.inv u (opOf u e) ∈ s.c.hist ++ [.res t a.op r] := by
          intro e he
          rcases h.left e he with h1 | ⟨u, h1⟩
          · exact Or.inl h1
          · exact Or.inr ⟨u, List.mem_append_left _ h1⟩
        have hth' : ∀ v, ∀ u b, Function.update s.c.th t none u = some b → Function.update s.inc t v u = none ∧
            ∃ e ∈ all, b.op = opOf u e ∧ s.cur u = e.1 := by
          intro v u b hu
          rcases ConcMap.upd_cases hu with ⟨_, hx⟩ | ⟨hne, hx⟩
          · cases hx
          · rw [Function.update_of_ne hne]
            exact h.th u b hx
        by_cases hr : r = .bool true
        · subst hr
          refine ⟨hex, h.len, h.zero, h.todo, hcall, hall, hth' _, fun u j hu => ?_, fun j hj => ?_⟩
          · simp only [Function.update_apply] at hu
            split at hu
            · injection hu with hu
              subst hu
              rw [hcur]
              exact ho.src e he
            · exact h.inc u j hu
          · obtain ⟨c, c1, c2⟩ := h.count j hj
            refine ⟨c, c1, ?_⟩
            simp only
            rw [sum_update hi, acks_true, ← Nat.add_assoc, c2, hop]
            simp only [opOf, ho.unkey he, hcur, Option.some.injEq]
        · refine ⟨hex, h.len, h.zero, h.todo, hcall, hall, hth' _, fun u j hu => ?_, fun j hj => ?_⟩
          · simp only [Function.update_apply] at hu
            split at hu
            · cases hu
            · exact h.inc u j hu
          · obtain ⟨c, c1, c2⟩ := h.count j hj
            refine ⟨c, c1, ?_⟩
            simp only
            rw [sum_update hi, acks_else _ _ _ _ hr, ← Nat.add_assoc, c2]
            simp
    · rename_i hth
      split at ht
      · cases ht
      · rename_i e l htd
        injection ht with ht
        subst ht
        have he : e ∈ all := h.todo t e (by rw [htd]; simp)
        refine ⟨Reach.step h.exec (Step.call s.c t (opOf t e) hth ⟨ho.key_ne he, t.2⟩), h.len, h.zero, fun u x hx => ?_,
          fun u o hu => ?_, fun x hx => ?_, fun u b hu => ?_, h.inc, fun j hj => ?_⟩
        · simp only [Function.update_apply] at hx
          split at hx
          · exact h.todo t x (by rw [htd]; exact List.mem_cons_of_mem _ hx)
          · exact h.todo u x hx
        · rcases List.mem_append.1 hu with hu | hu
          · exact h.call u o hu
          · simp only [List.mem_singleton, Ev.inv.injEq] at hu
            obtain ⟨rfl, rfl⟩ := hu
            exact ⟨e, he, rfl⟩
        · rcases h.left x hx with ⟨u, hu⟩ | ⟨u, hu⟩
          · by_cases hut : u = t
            · subst hut
              rw [htd] at hu
              rcases List.mem_cons.mp hu with rfl | hu
              · exact Or.inr ⟨u, List.mem_append_right _ (List.mem_singleton.mpr rfl)⟩
              · exact Or.inl ⟨u, by simp only [Function.update_self]; exact hu⟩
            · exact Or.inl ⟨u, by simp only [Function.update_of_ne hut]; exact hu⟩
          · exact Or.inr ⟨u, List.mem_append_left _ hu⟩
        · rcases ConcMap.upd_cases hu with ⟨rfl, hx⟩ | ⟨hne, hx⟩
          · injection hx with hx
            subst hx
            exact ⟨hi, e, he, rfl, by simp⟩
          · simp only [Function.update_of_ne hne]
            exact h.th u b hx
        · obtain ⟨c, c1, c2⟩ := h.count j hj
          exact ⟨c, c1, by rw [acks_inv]; exact c2⟩

theorem LInv.reach {junk : Nat → Nat} {ha msize n : Nat} {work : Fin T → List Edge}
    (ho : MapEdges n (List.ofFn work).flatten) {s : Loop T}
    (h : Relation.ReflTransGen Loop.Step (Loop.init junk ha msize n work) s) :
    LInv junk ha msize n (List.ofFn work).flatten s := by
  induction h with
  | refl => exact LInv.init
  | tail _ hs ih => exact ih.step ho hs

/-- The different edges of a sample: what the edge map has to hold. -/
def edgeCount (D : Nat) (tr : Nat → Option Nat) (S : List (List Nat)) : Nat :=
  ((S.flatMap (pairs D tr fun _ _ => 0)).map fun e => (e.1, e.2.1)).toFinset.card

theorem mem_edgeCount {D : Nat} {tr : Nat → Option Nat} {w w' : Nat → Nat → Int} {S : List (List Nat)} {x : Nat × Nat} :
    x ∈ (S.flatMap (pairs D tr w)).map (fun e => (e.1, e.2.1)) → x ∈ (S.flatMap (pairs D tr w')).map fun e => (e.1, e.2.1) := by
  intro hx
  obtain ⟨e, he, rfl⟩ := List.mem_map.mp hx
  obtain ⟨vs, hvs, he⟩ := List.mem_flatMap.mp he
  obtain ⟨p, hp, q, hq, fp, fq, hne, rfl⟩ := mem_pairs.mp he
  exact List.mem_map.mpr ⟨_, List.mem_flatMap.mpr ⟨vs, hvs, mem_pairs.mpr ⟨p, hp, q, hq, fp, fq, hne, rfl⟩⟩, rfl⟩

/-- The keys passed to the map are keys of edges. -/
theorem LInv.called_le {junk : Nat → Nat} {ha msize n : Nat} {all : List Edge} {s : Loop T}
    (h : LInv junk ha msize n all s) :
    (calledKeys s.c.hist).toFinset.card ≤ (all.map fun e => (e.1, e.2.1)).toFinset.card := by
  refine (Finset.card_le_card (t := (all.map fun e => (e.1, e.2.1)).toFinset.image fun x => key x.1 x.2) ?_).trans
    Finset.card_image_le
  intro k hk
  obtain ⟨ev, hev, hek⟩ := List.mem_filterMap.1 (List.mem_toFinset.1 hk)
  cases ev with
  | res => cases hek
  | inv t o =>
    injection hek with hek
    obtain ⟨e, he, rfl⟩ := h.call t o hev
    exact Finset.mem_image.2 ⟨(e.1, e.2.1), List.mem_toFinset.2 (List.mem_map.2 ⟨e, he, rfl⟩), hek⟩

theorem map_edges {D : Nat} {ids : List Nat} {S : List (List Nat)} (h : SampleOk D ids S) (w : Nat → Nat → Int)
    (hn : ids.length ≤ 2 ^ 32) {all : List Edge} (hp : all.Perm (S.flatMap (pairs D (translation ids) w))) :
    MapEdges ids.length all := by
  have ho := edges_ok h w hn hp
  exact ⟨hn, ho.src, ho.dst, fun e he => ((edges_spec h w e).mp (hp.mem_iff.mp he)).1⟩

theorem memory_get (junk : Nat → Nat) (vals : List (Option Nat)) (i : Nat) :
    (GrowingMap.memory junk vals)[i]? = vals[i]?.map fun x => x.getD (junk i) := by
  unfold GrowingMap.memory
  rw [List.getElem?_map, List.getElem?_zipIdx]
  cases vals[i]? <;> simp

theorem memory_length (junk : Nat → Nat) (vals : List (Option Nat)) : (GrowingMap.memory junk vals).length = vals.length := by
  simp [GrowingMap.memory]

/-- The keys of the entries. -/
theorem entries_fst {s : GrowingMap.Shared} {tb : GrowingMap.Tab} (h : s.tabs[s.tr]? = some tb)
    (hl : tb.t.vals.length = tb.t.keys.length) :
    (entries s).map Prod.fst = (GrowingMap.pairs tb.t).map Prod.fst := by
  unfold entries GrowingMap.pairs
  rw [h]
  simp only [List.map_map]
  have e1 : ((tb.t.keys.zip (GrowingMap.memory s.junk tb.t.vals)).filter (fun x => decide (x.1 ≠ 0))).map
      (Prod.fst ∘ fun x => (x.1, (x.2 : Int))) = tb.t.keys.filter fun k => decide (k ≠ 0) := by
    conv_rhs => rw [← List.map_fst_zip (l₁ := tb.t.keys) (l₂ := GrowingMap.memory s.junk tb.t.vals) (by rw [memory_length, hl])]
    rw [List.filter_map]
    rfl
  have e2 : ((tb.t.keys.zip tb.t.vals).filter (fun x => decide (x.1 ≠ 0))).map Prod.fst = tb.t.keys.filter fun k => decide (k ≠ 0) := by
    conv_rhs => rw [← List.map_fst_zip (l₁ := tb.t.keys) (l₂ := tb.t.vals) (by rw [hl])]
    rw [List.filter_map]
    rfl
  rw [e1, e2]

theorem mem_entries {s : GrowingMap.Shared} {tb : GrowingMap.Tab} (h : s.tabs[s.tr]? = some tb) {x : Nat × Int}
    (hx : x ∈ entries s) : ∃ v j, (x.1, v) ∈ GrowingMap.pairs tb.t ∧ x.2 = ((v.getD (s.junk j) : Nat) : Int) := by
  unfold entries at hx
  rw [h] at hx
  obtain ⟨y, hy, rfl⟩ := List.mem_map.1 hx
  obtain ⟨hy, h0⟩ := List.mem_filter.1 hy
  obtain ⟨i, hi⟩ := List.mem_iff_getElem?.1 hy
  obtain ⟨h1, h2⟩ := List.getElem?_zip_eq_some.1 hi
  rw [memory_get] at h2
  obtain ⟨v, h3, h4⟩ := Option.map_eq_some_iff.1 h2
  exact ⟨v, i, List.mem_filter.2 ⟨List.mem_iff_getElem?.2 ⟨i, List.getElem?_zip_eq_some.2 ⟨h1, h3⟩⟩, h0⟩, by simp [h4]⟩

theorem mem_edge_key {n : Nat} {all : List Edge} (ho : MapEdges n all) {e e' : Edge} (he : e ∈ all) (he' : e' ∈ all)
    (hk : key e.1 e.2.1 = key e'.1 e'.2.1) : e.1 = e'.1 ∧ e.2.1 = e'.2.1 := by
  have h1 := ho.unkey he
  rw [hk, ho.unkey he'] at h1
  obtain ⟨h2, h3⟩ := Prod.mk.inj h1
  exact ⟨h2.symm, h3.symm⟩

/-- At the end of the loop the table holds the edges, each once. -/
theorem LInv.entries {junk : Nat → Nat} {ha msize n : Nat} {f : Nat → Nat → Int} {all : List Edge} (ho : MapEdges n all)
    (hf : EdgesOk n f all) (hw : ∀ e ∈ all, 0 ≤ e.2.2) {s : Loop T}
    (h : LInv junk ha msize n all s) (hfin : s.final) (hms : 1 ≤ msize)
    (hc : (all.map fun e => (e.1, e.2.1)).toFinset.card < nextPow2 msize / 2) :
    ((Samp.entries s.c.sh).map Prod.fst).Nodup ∧
      (∀ x, x ∈ Samp.entries s.c.sh ↔ ∃ e ∈ all, x = (key e.1 e.2.1, e.2.2)) ∧
      ∀ i, acks s.c.hist i = cnt (Samp.entries s.c.sh) i := by
  have hc' := Nat.lt_of_le_of_lt h.called_le hc
  have hq : s.c.quiescent := fun t => (hfin t).2.1
  obtain ⟨tb, h1, h2, h3, h4⟩ := GrowingMap.C106_quiescent junk ha msize T T hms s.c h.exec hc' hq
  obtain ⟨tb', h1', h2', _⟩ := GrowingMap.C106_no_growth junk ha msize T T hms s.c h.exec hc'
  obtain ⟨p, hp⟩ := nextPow2_isPow hms
  obtain ⟨d, hd⟩ := GrowingMap.reach_sim hp h.exec (by rw [← hp]; exact hc')
  have hdi := ConcMap.reach_inv hd.reach
  have e1 : tb' = tb := by rw [h1] at h1'; simpa using h1'.symm
  subst e1
  have e2 : tb' = ⟨d.sh, 0⟩ := by rw [hd.sh] at h1; simpa using h1.symm
  have htb : s.c.sh.tabs[s.c.sh.tr]? = some tb' := by rw [hd.sh, e2]; rfl
  have hlen : tb'.t.vals.length = tb'.t.keys.length := by rw [e2]; exact hdi.vlen
  have hfst := entries_fst htb hlen
  have hnd : ((Samp.entries s.c.sh).map Prod.fst).Nodup := by rw [hfst]; exact h2'
  have hmem : ∀ x ∈ Samp.entries s.c.sh, ∃ e ∈ all, x = (key e.1 e.2.1, e.2.2) := by
    intro x hx
    obtain ⟨v, j, hv, hxv⟩ := mem_entries htb hx
    obtain ⟨t, o, ho1, ho2, ho3⟩ := h4 _ _ hv
    obtain ⟨e, he, rfl⟩ := h.call t o ho1
    refine ⟨e, he, Prod.ext ho2.symm ?_⟩
    rw [hxv, ho3]
    simp only [opOf, Option.getD_some]
    exact Int.toNat_of_nonneg (hw e he)
  refine ⟨hnd, fun x => ⟨hmem x, ?_⟩, fun i => ?_⟩
  · rintro ⟨e, he, rfl⟩
    have hck : key e.1 e.2.1 ∈ calledKeys s.c.hist := by
      rcases h.left e he with ⟨t, ht⟩ | ⟨t, ht⟩
      · rw [(hfin t).2.2] at ht
        cases ht
      · exact List.mem_filterMap.2 ⟨_, ht, rfl⟩
    have hin := h2.mem_iff.2 ((h3 _).2 hck)
    rw [← hfst] at hin
    obtain ⟨x, hx, hxk⟩ := List.mem_map.1 hin
    obtain ⟨e', he', rfl⟩ := hmem x hx
    obtain ⟨q1, q2⟩ := mem_edge_key ho he' he hxk
    have : e' = e := by
      refine Prod.ext q1 (Prod.ext q2 ?_)
      rw [hf.wt e' he', hf.wt e he, q1, q2]
    rw [← this]
    exact hx
  · rw [acks, ← h2.countP_eq, ← hfst, cnt, List.countP_map]
    rfl

/-- **C108** (partial: as long as the edge map does not grow). `makeGraph` with the concurrent map of the code:
if there are fewer different edges than half the number of slots of the edge map, the graph
is, whatever the schedule of the insertions and the distribution of the work, that of the sample triangulation. -/
theorem C108_partial {D : Nat} {ids : List Nat} {S : List (List Nat)} (h : SampleOk D ids S) (w : Nat → Nat → Int)
    (hw : ∀ p q, 0 ≤ w p q) (hn : ids.length ≤ 2 ^ 32) {size : Nat} (hsz : ids.length ≤ size) (junk : Nat → Nat) (ha msize : Nat)
    (hms : 1 ≤ msize) (hc : edgeCount D (translation ids) S < nextPow2 msize / 2) {g : Graph}
    (hg : MakeGraphMap D ids.length (translation ids) w S size junk ha msize g) : GraphOk ids w S g := by
  obtain ⟨T, work, s, recs, ework, a, hwk, hs, hsf, hps, hew, ha', haf⟩ := hg
  have ho := map_edges h w hn hwk
  have hf := edges_ok h w hn hwk
  have li := LInv.reach ho hs
  have hpos : ∀ e ∈ (List.ofFn work).flatten, 0 ≤ e.2.2 := by
    intro e he
    obtain ⟨_, vs, _, p, _, q, _, _, _, h3⟩ := (edges_spec h w e).mp (hwk.mem_iff.mp he)
    rw [h3]
    exact hw p q
  have hcard : (((List.ofFn work).flatten).map fun e => (e.1, e.2.1)).toFinset.card < nextPow2 msize / 2 := by
    refine Nat.lt_of_le_of_lt (Finset.card_le_card fun x hx => ?_) hc
    rw [List.mem_toFinset] at hx ⊢
    exact mem_edgeCount ((hwk.map _).mem_iff.mp hx)
  obtain ⟨e1, e2, e3⟩ := li.entries ho hf hpos hsf hms hcard
  obtain ⟨c, c1, c2⟩ := exists_run (r := Collect.Step) Collect.left (fun _ _ hs => hs.left_lt) (Collect.init ids.length work)
  have hcf := Collect.stuck (C68_collect_defined h w hn hwk c1) c2
  have ci := CInv.reach hf c1
  have hperm : (entries s.c.sh).Perm c.map := by
    refine (List.perm_ext_iff_of_nodup e1.of_map ci.nodup.of_map).2 fun x => ?_
    rw [e2]
    refine ⟨?_, ci.entry x⟩
    rintro ⟨e, he, rfl⟩
    rcases ci.all e he with ⟨t, ht⟩ | ⟨x, hx, hxk⟩
    · rw [(hcf t).2] at ht
      cases ht
    · obtain ⟨e', he', rfl⟩ := ci.entry x hx
      obtain ⟨q1, q2⟩ := mem_edge_key ho he' he hxk
      have : e' = e := by
        refine Prod.ext q1 (Prod.ext q2 ?_)
        rw [hf.wt e' he', hf.wt e he, q1, q2]
      rw [← this]
      exact hx
  have hrecs : c.recs = s.recs := by
    refine List.ext_getElem? fun i => ?_
    rcases Nat.eq_zero_or_pos i with rfl | hi
    · rw [ci.zero, li.zero]
    · by_cases hin : i - 1 < ids.length
      · obtain ⟨r, r1, r2⟩ := li.count (i - 1) hin
        have r3 := ci.final hcf (i - 1) hin
        have hsum : (∑ t, if s.inc t = some (i - 1) then 1 else 0) = 0 :=
          Finset.sum_eq_zero fun t _ => by rw [(hsf t).1]; rfl
        rw [Nat.sub_add_cancel hi] at r1 r3
        rw [r1, r3, cnt, ← hperm.countP_eq, ← cnt, ← e3]
        rw [hsum] at r2
        rw [← r2, Nat.add_zero]
      · rw [List.getElem?_eq_none (by rw [ci.len]; omega), List.getElem?_eq_none (by rw [li.len]; omega)]
  exact C68_partial h w hn hsz (.intro T work c recs ework a hwk c1 hcf (by rw [hrecs]; exact hps) (hew.trans hperm) ha' haf)

/-- **C108.** As long as the map does not grow, the first loop has no undefined behaviour and no deadlock: in every reachable state
every thread that has not finished has a next step. -/
theorem C108_defined {D : Nat} {ids : List Nat} {S : List (List Nat)} (h : SampleOk D ids S) (w : Nat → Nat → Int)
    (hn : ids.length ≤ 2 ^ 32) (junk : Nat → Nat) (ha msize : Nat)
    (hms : 1 ≤ msize) (hc : edgeCount D (translation ids) S < nextPow2 msize / 2) {work : Fin T → List Edge}
    (hwk : ((List.ofFn work).flatten).Perm (S.flatMap (pairs D (translation ids) w))) {s : Loop T}
    (hs : Relation.ReflTransGen Loop.Step (Loop.init junk ha msize ids.length work) s) (t : Fin T)
    (ht : ¬ (s.inc t = none ∧ s.c.th t = none ∧ s.todo t = [])) : ∃ s', s.next t = some s' := by
  have ho := map_edges h w hn hwk
  have li := LInv.reach ho hs
  have hcard : (calledKeys s.c.hist).toFinset.card < nextPow2 msize / 2 := by
    refine Nat.lt_of_le_of_lt (li.called_le.trans (Finset.card_le_card fun x hx => ?_)) hc
    rw [List.mem_toFinset] at hx ⊢
    exact mem_edgeCount ((hwk.map _).mem_iff.mp hx)
  obtain ⟨p, hp⟩ := nextPow2_isPow hms
  obtain ⟨d, hd⟩ := GrowingMap.reach_sim hp li.exec (by rw [← hp]; exact hcard)
  have hdi := ConcMap.reach_inv hd.reach
  unfold Loop.next
  cases hi : s.inc t with
  | some i =>
    have := li.inc t i hi
    have := li.len
    simp only
    rw [if_pos (by omega)]
    exact ⟨_, rfl⟩
  | none =>
    cases hth : s.c.th t with
    | none =>
      cases htd : s.todo t with
      | nil => exact absurd ⟨hi, hth, htd⟩ ht
      | cons e l => exact ⟨_, rfl⟩
    | some a =>
      have hsome : ∃ r, GrowingMap.step s.c.sh a.loc = some r := by
        have hR := hd.th t
        rw [hth] at hR
        cases hB : d.th t with
        | none => rw [hB] at hR; exact hR.elim
        | some B =>
          rw [hB] at hR
          obtain ⟨o, l, st⟩ := a
          obtain ⟨o', lb, sb⟩ := B
          obtain ⟨hh, ho', hl⟩ := hR
          rcases hl with ⟨rfl, rfl⟩ | rfl
          · rw [hd.sh]
            simp only [GrowingMap.step, GrowingMap.hs_get hh]
            rw [if_neg (by omega)]
            exact ⟨_, rfl⟩
          · rw [hd.sh]
            simp only [GrowingMap.step, GrowingMap.hs_get hh, List.getElem?_cons_zero]
            have hloc := hdi.loc t _ hB
            rw [← hdi.ha] at hloc
            rcases ConcMap.step_cases hdi.len (by rw [hdi.ha]; exact hdi.path) hdi.vlen hloc with
              ⟨s', out, hst, _⟩ | ⟨_, k, i, _, hop, _⟩
            · simp only at hst
              rw [hst]
              exact ⟨_, rfl⟩
            · simp only [ho'] at hop
              cases hop
      obtain ⟨⟨sh, out⟩, hst⟩ := hsome
      simp only [hst]
      cases out <;> exact ⟨_, rfl⟩

/-! ### Executable schedules -/

/-- Steps of the threads in a given order. -/
def Loop.run : Loop T → List (Fin T) → Option (Loop T)
  | s, [] => some s
  | s, t :: l => match s.next t with
    | none => none
    | some s' => Loop.run s' l

/-- The next step of a thread of the second loop. -/
def Assign.next (recs : List Nat) (s : Assign T) (t : Fin T) : Option (Assign T) :=
  match s.put t with
  | some x => if x.1 < s.adj.length ∧ x.1 < s.wts.length then some (s.store t x) else none
  | none => match s.todo t with
    | [] => none
    | x :: l => match recs[(unkey x.1).1]?, s.index[(unkey x.1).1]? with
      | some base, some off => some (s.take t x l base off)
      | _, _ => none

/-- Steps of the threads of the second loop in a given order. -/
def Assign.run (recs : List Nat) : Assign T → List (Fin T) → Option (Assign T)
  | s, [] => some s
  | s, t :: l => match s.next recs t with
    | none => none
    | some s' => Assign.run recs s' l

theorem Loop.run_steps : ∀ {l : List (Fin T)} {s s' : Loop T}, s.run l = some s' → Relation.ReflTransGen Loop.Step s s'
  | [], s, s', h => by
    injection h with h
    subst h
    exact .refl
  | t :: l, s, s', h => by
    unfold Loop.run at h
    split at h
    · cases h
    · rename_i s1 h1
      exact .head ⟨t, h1⟩ (Loop.run_steps h)

theorem Assign.next_step {recs : List Nat} {s s' : Assign T} {t : Fin T} (h : s.next recs t = some s') : Assign.Step recs s s' := by
  unfold Assign.next at h
  split at h
  · rename_i x hx
    split at h
    · rename_i hl
      injection h with h
      subst h
      exact .store s t x hx hl.1 hl.2
    · cases h
  · rename_i hp
    split at h
    · cases h
    · rename_i x l ht
      split at h
      · rename_i base off hb hof
        injection h with h
        subst h
        exact .take s t x l base off hp ht hb hof
      · cases h

theorem Assign.run_steps {recs : List Nat} : ∀ {l : List (Fin T)} {s s' : Assign T}, s.run recs l = some s' →
    Relation.ReflTransGen (Assign.Step recs) s s'
  | [], s, s', h => by
    injection h with h
    subst h
    exact .refl
  | t :: l, s, s', h => by
    unfold Assign.run at h
    split at h
    · cases h
    · rename_i s1 h1
      exact .head (Assign.next_step h1) (Assign.run_steps h)

/-- What a run of two threads with the given schedules computes; the first thread does the second loop. -/
def runGraph (size : Nat) (junk : Nat → Nat) (ha msize n : Nat) (work : Fin 2 → List Edge) (l : List (Fin 2)) :
    Option Graph :=
  match (Loop.init junk ha msize n work).run l with
  | none => none
  | some s =>
    if ((s.inc 0).isNone && (s.c.th 0).isNone && (s.todo 0).isEmpty) &&
        ((s.inc 1).isNone && (s.c.th 1).isNone && (s.todo 1).isEmpty) then
      match partialSum 0 s.recs with
      | none => none
      | some recs =>
        match (Assign.init (T := 2) size (recs.getLast?.getD 0) (fun t => if t = 0 then entries s.c.sh else [])).run recs
            (List.replicate (2 * (entries s.c.sh).length) 0) with
        | none => none
        | some a =>
          if ((a.put 0).isNone && (a.todo 0).isEmpty) && ((a.put 1).isNone && (a.todo 1).isEmpty) then
            some ⟨recs, a.adj, a.wts⟩
          else none
    else none

theorem runGraph_makes {D n size : Nat} {tr : Nat → Option Nat} {w : Nat → Nat → Int} {S : List (List Nat)} {junk : Nat → Nat}
    {ha msize : Nat} {work : Fin 2 → List Edge} {l : List (Fin 2)} {g : Graph}
    (hw : (work 0 ++ work 1).Perm (S.flatMap (pairs D tr w)))
    (h : runGraph size junk ha msize n work l = some g) : MakeGraphMap D n tr w S size junk ha msize g := by
  unfold runGraph at h
  split at h
  · cases h
  · rename_i s hs
    split at h
    · rename_i hf
      simp only [Bool.and_eq_true, Option.isNone_iff_eq_none, List.isEmpty_iff] at hf
      split at h
      · cases h
      · rename_i recs hr
        split at h
        · cases h
        · rename_i a ha
          split at h
          · rename_i hf'
            simp only [Bool.and_eq_true, Option.isNone_iff_eq_none, List.isEmpty_iff] at hf'
            injection h with h
            subst h
            refine .intro 2 work s recs _ a (by simpa [List.ofFn_succ] using hw) (Loop.run_steps hs) ?_ hr ?_ (Assign.run_steps ha) ?_
            · intro t
              fin_cases t
              · exact ⟨hf.1.1.1, hf.1.1.2, hf.1.2⟩
              · exact ⟨hf.2.1.1, hf.2.1.2, hf.2.2⟩
            · simp [List.ofFn_succ]
            · intro t
              fin_cases t
              · exact ⟨hf'.1.1, hf'.1.2⟩
              · exact ⟨hf'.2.1, hf'.2.2⟩
          · cases h
    · cases h

/-- A sample of four points in convex position in the plane: two finite and four infinite triangles. -/
def quad : List (List Nat) :=
  [[0, 1, 2], [0, 2, 3], [1, 2, Part.cINF 2], [2, 3, Part.cINF 2], [3, 0, Part.cINF 2], [0, 1, Part.cINF 2]]

/-- The first thread has the first triangle, the other thread the others. -/
def quadWork (t : Fin 2) : List Edge :=
  (if t = 0 then quad.take 1 else quad.drop 1).flatMap (pairs 2 (translation [0, 1, 2, 3]) fun _ _ => 1)

theorem quad_ok : SampleOk 2 [0, 1, 2, 3] quad := by
  refine ⟨by decide, by decide +kernel, by decide +kernel⟩

theorem quad_work : (quadWork 0 ++ quadWork 1).Perm (quad.flatMap (pairs 2 (translation [0, 1, 2, 3]) fun _ _ => 1)) := by
  decide +kernel

/-- The hypotheses of the theorem are met, if the ids of the triangles are 11, …, 16 (the process has triangulated
something before): the edge map has 32 slots for ten edges, and the threads take turns. -/
example : edgeCount 2 (translation [0, 1, 2, 3]) quad < nextPow2 (edgeMapSize 2 11 17) / 2 ∧
    MakeGraphMap 2 4 (translation [0, 1, 2, 3]) (fun _ _ => 1) quad 5 (fun _ => 0) 1 (edgeMapSize 2 11 17)
      ⟨[0, 3, 5, 8, 10], [1, 2, 3, 0, 2, 0, 3, 1, 0, 2], [1, 1, 1, 1, 1, 1, 1, 1, 1, 1]⟩ := by
  refine ⟨by decide +kernel, runGraph_makes quad_work
    (l := (List.replicate 57 [0, 1]).flatten ++ List.replicate 79 1) ?_⟩
  decide +kernel

/-- In space the condition can hold for the first triangulation of a process: an octahedron (poles 0 and 1) with its four
finite and eight infinite tetrahedra has 26 edges (in both directions), the edge map 64 slots. -/
example : edgeCount 3 (translation [0, 1, 2, 3, 4, 5])
    [[0, 1, 2, 3], [0, 1, 3, 4], [0, 1, 4, 5], [0, 1, 5, 2], [0, 2, 3, Part.cINF 3], [0, 3, 4, Part.cINF 3],
      [0, 4, 5, Part.cINF 3], [0, 5, 2, Part.cINF 3], [1, 2, 3, Part.cINF 3], [1, 3, 4, Part.cINF 3],
      [1, 4, 5, Part.cINF 3], [1, 5, 2, Part.cINF 3]] < nextPow2 (edgeMapSize 3 1 13) / 2 := by
  decide +kernel

/-- **C108 is violated when the edge map grows.** The triangles of the sample have the ids 1, …, 6, like those of the
first triangulation of a process, so the edge map has 16 slots for ten edges. Both threads insert the edge from 0
to 1: thread 0 has found a free slot for it when thread 1 makes the table grow, inserts the edge into the new table and
counts it; thread 0 then writes it into the old table and counts it again. In the graph, node 0 has four
neighbours instead of three, the fourth is node 0 itself (weight 0). -/
theorem C108_violated : ∃ g : Graph,
    MakeGraphMap 2 4 (translation [0, 1, 2, 3]) (fun _ _ => 1) quad 5 (fun _ => 0) 1 (edgeMapSize 2 1 7) g ∧
    g = ⟨[0, 4, 6, 9, 11], [2, 3, 1, 0, 2, 0, 0, 3, 1, 0, 2], [1, 1, 1, 0, 1, 1, 1, 1, 1, 1, 1]⟩ ∧
    ¬ GraphOk [0, 1, 2, 3] (fun _ _ => 1) quad g := by
  refine ⟨_, runGraph_makes quad_work (l := List.replicate 4 0 ++ List.replicate 236 1 ++ List.replicate 58 0) ?_, rfl, ?_⟩
  · decide +kernel
  · intro h
    exact ((h.mem 0 0 4 rfl rfl 0).1 ⟨3, by omega, by omega, rfl⟩).1 rfl

end Samp
end Verif
