import Verif.Spec.Growing
import Verif.Lemmas.Growing
import Verif.Lemmas.Migrate

/-!
# Tables of the growing set: how they change, and the local invariants of the threads
-/
namespace Verif
namespace Growing
open Conc
open ConcSet (Passed)

/-- Slots, copy counter and hash multiplier of table `v`. -/
def ar (s : Shared) (v : Nat) : List Nat := match s.tabs[v]? with
  | some tb => tb.t.arr
  | none => []

def cp (s : Shared) (v : Nat) : Nat := match s.tabs[v]? with
  | some tb => tb.copy
  | none => 0

def mu (s : Shared) (v : Nat) : Nat := match s.tabs[v]? with
  | some tb => tb.t.a
  | none => 0

theorem ar_some {s : Shared} {v : Nat} {tb : Tab} (h : s.tabs[v]? = some tb) : ar s v = tb.t.arr := by
  simp [ar, h]

theorem cp_some {s : Shared} {v : Nat} {tb : Tab} (h : s.tabs[v]? = some tb) : cp s v = tb.copy := by
  simp [cp, h]

theorem mu_some {s : Shared} {v : Nat} {tb : Tab} (h : s.tabs[v]? = some tb) : mu s v = tb.t.a := by
  simp [mu, h]

theorem lt_of_mem_ar {s : Shared} {v k : Nat} (h : k ∈ ar s v) : v < s.tabs.length := by
  by_contra hv
  simp [ar, List.getElem?_eq_none (Nat.le_of_not_lt hv)] at h

/-- Occupied slots keep their contents. -/
structure AExt (arr arr' : List Nat) : Prop where
  len : arr'.length = arr.length
  sl : ∀ i, Verif.sl arr i ≠ 0 → Verif.sl arr' i = Verif.sl arr i

theorem AExt.refl (arr : List Nat) : AExt arr arr := ⟨rfl, fun _ _ => rfl⟩

theorem AExt.set {arr : List Nat} (hn : 0 < arr.length) {i k : Nat} (h0 : Verif.sl arr i = 0) :
    AExt arr (arr.set (i % arr.length) k) :=
  ⟨by simp, fun _ hj => ConcSet.sl_set_ne hn h0 hj⟩

theorem AExt.mem {arr arr' : List Nat} (h : AExt arr arr') {x : Nat} (hx0 : x ≠ 0) (hx : x ∈ arr) :
    x ∈ arr' := by
  obtain ⟨j, hj, hjx⟩ := (mem_iff_sl x).1 hx
  rw [mem_iff_sl]
  exact ⟨j, by rw [h.len]; exact hj, by rw [h.sl j (by rw [hjx]; exact hx0), hjx]⟩

theorem AExt.getElem? {arr arr' : List Nat} (h : AExt arr arr') {i x : Nat} (hx0 : x ≠ 0)
    (hx : arr[i]? = some x) : arr'[i]? = some x := by
  obtain ⟨hi, hix⟩ := List.getElem?_eq_some_iff.1 hx
  have hi' : i < arr'.length := by rw [h.len]; exact hi
  rw [List.getElem?_eq_getElem hi']
  have := h.sl i (by rw [sl_getElem _ _ hi, hix]; exact hx0)
  rw [sl_getElem _ _ hi, sl_getElem _ _ hi', hix] at this
  rw [this]

theorem AExt.passed {arr arr' : List Nat} (h : AExt arr arr') {hs k d : Nat}
    (hp : Passed arr hs k d) : Passed arr' hs k d := by
  intro e he
  rw [h.sl _ (hp e he).1]
  exact hp e he

theorem AExt.setLoc {arr arr' : List Nat} (h : AExt arr arr') {a : Nat}
    {A : Active ConcSet.Loc ConcSet.SetOp} (hA : ConcSet.LocOk a arr A) : ConcSet.LocOk a arr' A := by
  unfold ConcSet.LocOk at *
  cases hl : A.loc <;> simp only [hl, h.len] at *
  · exact hA
  · obtain ⟨h1, h2, d, h3, h4, h5⟩ := hA
    exact ⟨h1, h2, d, h3, h.passed h4, h5⟩
  · obtain ⟨h1, h2, d, h3, h4, h5⟩ := hA
    exact ⟨h1, h2, d, h3, h.passed h4, h5⟩
  · obtain ⟨h1, h2, h3, d, h4, h5, h6⟩ := hA
    exact ⟨h1, h2, h.mem h2 h3, d, h.passed h4, by rw [h.sl _ (by rw [h5]; exact h2)]; exact h5, h6⟩
  · obtain ⟨h1, h2, d, h3, h4, h5⟩ := hA
    exact ⟨h1, h2, d, h3, h.passed h4, h5⟩

theorem migLoc_ext {s s' : Migrate.Shared} (h1 : AExt s.old s'.old) (h2 : AExt s.new.arr s'.new.arr)
    (h3 : s'.new.a = s.new.a) (h4 : s.copy ≤ s'.copy) {l : Migrate.Loc} (h : Migrate.LocOk s l) :
    Migrate.LocOk s' l := by
  cases l <;> simp only [Migrate.LocOk, h1.len, h2.len, h3] at * <;> try first | exact h | omega
  · obtain ⟨g1, g2, g3, d, g4, g5⟩ := h
    exact ⟨g1, h1.getElem? g1 g2, g3, d, g4, h2.passed g5⟩
  · obtain ⟨g1, g2, g3, d, g4, g5⟩ := h
    exact ⟨g1, h1.getElem? g1 g2, g3, d, g4, h2.passed g5⟩

/-- How the shared state may change in a step. -/
structure Ext (s s' : Shared) : Prop where
  len : s.tabs.length ≤ s'.tabs.length
  arr : ∀ v, v < s.tabs.length → AExt (ar s v) (ar s' v)
  cpm : ∀ v, cp s v ≤ cp s' v
  er : s.er ≤ s'.er
  tr : s.tr ≤ s'.tr
  ew : s.ew ≤ s'.ew
  frz : ∀ j, j < cp s s.er → (ar s' s.er)[j]? = (ar s s.er)[j]?

theorem Ext.mem {s s' : Shared} (h : Ext s s') {v k : Nat} (hk : k ≠ 0) (hm : k ∈ ar s v) :
    k ∈ ar s' v := (h.arr v (lt_of_mem_ar hm)).mem hk hm

/-- Facts about the shared state alone. -/
structure GI (a : Nat) (s : Shared) : Prop where
  er_tr : s.er ≤ s.tr
  tr_lt : s.tr < s.tabs.length
  last : s.tabs.length ≤ s.er + 2
  er_ew : s.er ≤ s.ew
  tab : ∀ v, v < s.tabs.length → mu s v = a ∧ (∃ p, (ar s v).length = 2 ^ p) ∧
    PathOk (hash64 a) (ar s v)
  cp0 : ∀ v, s.er < v → cp s v = 0
  cpl : s.tabs.length = s.er + 1 → cp s s.er = 0
  old : ∀ v, v < s.er → (ar s v).length ≤ cp s v ∧ ∀ k, k ≠ 0 → k ∈ ar s v → k ∈ ar s s.er
  hnd : ∀ (h le lt : Nat), s.hs[h]? = some (le, lt) → le ≤ s.er ∧ lt ≤ s.tr

theorem GI.len_pos {a : Nat} {s : Shared} (h : GI a s) : 0 < s.tabs.length :=
  Nat.lt_of_le_of_lt (Nat.zero_le _) h.tr_lt

theorem GI.er_lt {a : Nat} {s : Shared} (h : GI a s) : s.er < s.tabs.length :=
  Nat.lt_of_le_of_lt h.er_tr h.tr_lt

theorem GI.arr_pos {a : Nat} {s : Shared} (h : GI a s) {v : Nat} (hv : v < s.tabs.length) :
    0 < (ar s v).length := by
  obtain ⟨_, ⟨p, hp⟩, _⟩ := h.tab v hv
  rw [hp]; exact Nat.pow_pos (by omega)

theorem GI.up {a : Nat} {s : Shared} (h : GI a s) {v k : Nat} (hv : v ≤ s.er) (hk : k ≠ 0)
    (hm : k ∈ ar s v) : k ∈ ar s s.er := by
  rcases Nat.lt_or_eq_of_le hv with h1 | h1
  · exact (h.old v h1).2 k hk hm
  · rw [← h1]; exact hm

theorem GI.mult {a : Nat} {s : Shared} (h : GI a s) : s.mult = a := by
  have h0 := (h.tab 0 h.len_pos).1
  unfold Shared.mult
  unfold mu at h0
  cases ht : s.tabs with
  | nil => have := h.len_pos; rw [ht] at this; simp at this
  | cons x xs => rw [ht] at h0; simpa using h0

/-- A growth step from table `lt` to table `w`. -/
def W (s : Shared) (lt w : Nat) : Prop :=
  lt < w ∧ w < s.tabs.length ∧ (lt = s.er → w = s.er + 1)

/-- The migration of table `lt` is complete, if `lt` is the current one. -/
def Dn (s : Shared) (lt : Nat) : Prop :=
  lt = s.er → (ar s s.er).length ≤ cp s s.er ∧ ∀ k, k ≠ 0 → k ∈ ar s s.er → k ∈ ar s (s.er + 1)

/-- The state of a migration. -/
def migS (a : Nat) (s : Shared) (lt w : Nat) : Migrate.Shared :=
  ⟨ar s lt, cp s lt, ⟨ar s w, 0, a⟩, 0, []⟩

/-- Local invariant of a thread. -/
def LI (a : Nat) (s : Shared) : Loc → Prop
  | .tab h l => ∀ le lt, s.hs[h]? = some (le, lt) → ∃ op st, ConcSet.LocOk a (ar s lt) ⟨op, l, st⟩
  | .g2 h w _ => ∀ le lt, s.hs[h]? = some (le, lt) → W s lt w
  | .mig h w m _ => ∀ le lt, s.hs[h]? = some (le, lt) →
      W s lt w ∧ lt < s.ew ∧ Migrate.LocOk (migS a s lt w) m
  | .g8 h w _ => w < s.tabs.length ∧
      ∀ le lt, s.hs[h]? = some (le, lt) → W s lt w ∧ lt < s.ew ∧ Dn s lt
  | .g9 h w _ => ∀ le lt, s.hs[h]? = some (le, lt) → W s lt w ∧ lt < s.ew ∧ Dn s lt ∧ w ≤ s.tr
  | _ => True

/-- A key acknowledged before the operation began is in the table the operation looks at. -/
def LS (k : Nat) (s : Shared) : Loc → Prop
  | .gt2 h _ => ∀ le lt, s.hs[h]? = some (le, lt) → k ∈ ar s le
  | .tab h l => (∀ le lt, s.hs[h]? = some (le, lt) → k ∈ ar s lt) ∧ ∀ k', l ≠ .incr k'
  | _ => True

/-- The handle of a location. -/
def locH : Loc → Nat
  | .ins0 h _ => h
  | .con0 h _ => h
  | .gt1 h _ => h
  | .gt2 h _ => h
  | .tab h _ => h
  | .g1 h _ => h
  | .g2 h _ _ => h
  | .mig h _ _ _ => h
  | .g8 h _ _ => h
  | .g9 h _ _ => h

/-- Locations at which the handle's epoch agrees with its table. -/
def sync : Loc → Bool
  | .gt1 _ _ => false
  | .gt2 _ _ => false
  | _ => true

theorem W.mono {s s' : Shared} (he : Ext s s') {lt w : Nat} (hlt : lt ≤ s.er) (h : W s lt w) :
    W s' lt w := by
  refine ⟨h.1, Nat.lt_of_lt_of_le h.2.1 he.len, fun hx => ?_⟩
  have := he.er
  have h1 : s.er = s'.er := by omega
  rw [← h1]
  exact h.2.2 (by omega)

theorem Dn.mono {a : Nat} {s s' : Shared} (hg : GI a s) (he : Ext s s') {lt : Nat} (hlt : lt ≤ s.er)
    (h : Dn s lt) : Dn s' lt := by
  intro hx
  have := he.er
  have h1 : s'.er = s.er := by omega
  obtain ⟨h2, h3⟩ := h (by omega)
  have hlen := (he.arr s.er hg.er_lt).len
  rw [h1]
  refine ⟨by rw [hlen]; exact Nat.le_trans h2 (he.cpm _), fun k hk hm => ?_⟩
  obtain ⟨j, hj, hjk⟩ := List.getElem_of_mem hm
  have h4 := he.frz j (by omega)
  rw [List.getElem?_eq_getElem hj, hjk] at h4
  exact he.mem hk (h3 k hk (List.mem_of_getElem? h4.symm))

theorem LI.mono {a : Nat} {s s' : Shared} (hg : GI a s) (he : Ext s s') {l : Loc}
    (hh : s'.hs[locH l]? = s.hs[locH l]?)
    (hl : ∀ le lt, s.hs[locH l]? = some (le, lt) → sync l = true → lt ≤ s.er)
    (h : LI a s l) : LI a s' l := by
  cases l <;> try trivial
  all_goals simp only [LI, locH] at *
  case g8 =>
    refine ⟨Nat.lt_of_lt_of_le h.1 he.len, fun le lt hlt => ?_⟩
    rw [hh] at hlt
    have hle := hl le lt hlt rfl
    have h0 := h.2 le lt hlt
    exact ⟨h0.1.mono he hle, Nat.lt_of_lt_of_le h0.2.1 he.ew, h0.2.2.mono hg he hle⟩
  all_goals
    intro le lt hlt
    rw [hh] at hlt
    have hle := hl le lt hlt rfl
    have h0 := h le lt hlt
  · obtain ⟨op, st, h1⟩ := h0
    exact ⟨op, st, (he.arr lt (Nat.lt_of_le_of_lt hle hg.er_lt)).setLoc h1⟩
  · exact h0.mono he hle
  · exact ⟨h0.1.mono he hle, Nat.lt_of_lt_of_le h0.2.1 he.ew,
      migLoc_ext (s := migS a s _ _) (s' := migS a s' _ _)
      (he.arr lt (Nat.lt_of_le_of_lt hle hg.er_lt)) (he.arr _ h0.1.2.1) rfl (he.cpm _) h0.2.2⟩
  · exact ⟨h0.1.mono he hle, Nat.lt_of_lt_of_le h0.2.1 he.ew, h0.2.2.1.mono hg he hle,
      Nat.le_trans h0.2.2.2 he.tr⟩

theorem LS.mono {k : Nat} (hk : k ≠ 0) {s s' : Shared} (he : Ext s s') {l : Loc}
    (hh : s'.hs[locH l]? = s.hs[locH l]?) (h : LS k s l) : LS k s' l := by
  cases l <;> try trivial
  all_goals simp only [LS, locH] at *
  · intro le lt hlt
    exact he.mem hk (h le lt (hh ▸ hlt))
  · exact ⟨fun le lt hlt => he.mem hk (h.1 le lt (hh ▸ hlt)), h.2⟩

/-- A step that leaves the tables' slots and copy counters and the read epoch alone. -/
structure Quiet (s s' : Shared) : Prop where
  len : s'.tabs.length = s.tabs.length
  ar : ∀ v, ar s' v = ar s v
  cp : ∀ v, cp s' v = cp s v
  mu : ∀ v, mu s' v = mu s v
  er : s'.er = s.er
  tr : s.tr ≤ s'.tr
  trl : s'.tr < s.tabs.length
  ew : s.ew ≤ s'.ew

theorem Quiet.refl {a : Nat} {s : Shared} (hg : GI a s) : Quiet s s :=
  ⟨rfl, fun _ => rfl, fun _ => rfl, fun _ => rfl, rfl, Nat.le_refl _, hg.tr_lt, Nat.le_refl _⟩

theorem Quiet.ext {s s' : Shared} (h : Quiet s s') : Ext s s' where
  len := by rw [h.len]
  arr v _ := by rw [h.ar]; exact AExt.refl _
  cpm v := by rw [h.cp]
  er := by rw [h.er]
  tr := h.tr
  ew := h.ew
  frz j _ := by rw [h.ar]

theorem Quiet.gi {a : Nat} {s s' : Shared} (h : Quiet s s') (hg : GI a s)
    (hnd : ∀ (x le lt : Nat), s'.hs[x]? = some (le, lt) → le ≤ s'.er ∧ lt ≤ s'.tr) : GI a s' where
  er_tr := by rw [h.er]; exact Nat.le_trans hg.er_tr h.tr
  tr_lt := by rw [h.len]; exact h.trl
  last := by rw [h.len, h.er]; exact hg.last
  er_ew := by rw [h.er]; exact Nat.le_trans hg.er_ew h.ew
  tab v hv := by
    rw [h.mu, h.ar]
    exact hg.tab v (by rw [← h.len]; exact hv)
  cp0 v hv := by rw [h.cp]; exact hg.cp0 v (by rw [← h.er]; exact hv)
  cpl hx := by rw [h.cp, h.er]; exact hg.cpl (by rw [← h.len, ← h.er]; exact hx)
  old v hv := by
    rw [h.ar, h.cp, h.er, h.ar]
    exact hg.old v (by rw [← h.er]; exact hv)
  hnd := hnd

/-! replacing a table -/

theorem get_set {s s' : Shared} {v : Nat} {tb' : Tab} (hv : v < s.tabs.length)
    (hs : s'.tabs = s.tabs.set v tb') (u : Nat) :
    s'.tabs[u]? = if u = v then some tb' else s.tabs[u]? := by
  rw [hs, List.getElem?_set]
  by_cases huv : u = v
  · subst huv
    rw [if_pos rfl, if_pos hv, if_pos rfl]
  · rw [if_neg (fun h => huv h.symm), if_neg huv]

theorem ar_set {s s' : Shared} {v : Nat} {tb' : Tab} (hv : v < s.tabs.length)
    (hs : s'.tabs = s.tabs.set v tb') (u : Nat) :
    ar s' u = if u = v then tb'.t.arr else ar s u := by
  unfold ar
  rw [get_set hv hs]
  by_cases h : u = v
  · simp only [if_pos h]
  · simp only [if_neg h]

theorem cp_set {s s' : Shared} {v : Nat} {tb' : Tab} (hv : v < s.tabs.length)
    (hs : s'.tabs = s.tabs.set v tb') (u : Nat) :
    cp s' u = if u = v then tb'.copy else cp s u := by
  unfold cp
  rw [get_set hv hs]
  by_cases h : u = v
  · simp only [if_pos h]
  · simp only [if_neg h]

theorem mu_set {s s' : Shared} {v : Nat} {tb' : Tab} (hv : v < s.tabs.length)
    (hs : s'.tabs = s.tabs.set v tb') (u : Nat) :
    mu s' u = if u = v then tb'.t.a else mu s u := by
  unfold mu
  rw [get_set hv hs]
  by_cases h : u = v
  · simp only [if_pos h]
  · simp only [if_neg h]

end Growing
end Verif
