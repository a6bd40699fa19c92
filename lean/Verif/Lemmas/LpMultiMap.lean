import Verif.Model.LpMultiMap
import Verif.Lemmas.LpSet
import Mathlib.Data.Nat.ModEq

/-!
# Invariants of the sequential multimap
-/
namespace Verif
namespace LpMultiMap

/-- No free slot between the hash position of a stored key and its slot. -/
def MPath (hash : Nat → Nat) (arr : List Nat) : Prop :=
  ∀ i, i < arr.length → sl arr i ≠ 0 →
    ∃ d, (hash (sl arr i) + d) % arr.length = i ∧ ∀ e, e < d → sl arr (hash (sl arr i) + e) ≠ 0

/-- The occupied slots. -/
def pairs (m : LpMultiMap) : List (Nat × Option Nat) :=
  (m.keys.zip m.vals).filter (fun p => p.1 != 0)

/-- The map stores exactly the pairs `P` (as a multiset). -/
def Abs (m : LpMultiMap) (P : List (Nat × Nat)) : Prop :=
  m.pairs.Perm (P.map (fun q => (q.1, some q.2)))

structure WF (m : LpMultiMap) : Prop where
  pow : ∃ p, m.keys.length = 2 ^ p
  vlen : m.vals.length = m.keys.length
  path : MPath (hash64 m.a) m.keys
  cnt : m.items = occ m.keys

theorem WF.pos {m : LpMultiMap} (h : m.WF) : 0 < m.keys.length := by
  obtain ⟨p, hp⟩ := h.pow
  rw [hp]; exact Nat.pow_pos (by omega)

theorem WF.items_le {m : LpMultiMap} (h : m.WF) : m.items ≤ m.keys.length := by
  rw [h.cnt]; exact occ_le _

theorem WF.free {m : LpMultiMap} (h : m.WF) (hlt : m.items < m.keys.length) : 0 ∈ m.keys :=
  zero_mem_of_occ_lt (by rw [← h.cnt]; exact hlt)

theorem pairs_length {m : LpMultiMap} (h : m.WF) : m.pairs.length = m.items := by
  rw [h.cnt, pairs, ← List.countP_eq_length_filter]
  unfold occ
  have : m.keys = (m.keys.zip m.vals).map Prod.fst := by
    rw [List.map_fst_zip (by rw [h.vlen])]
  conv_rhs => rw [this, List.countP_map]
  rfl

theorem items_eq {m : LpMultiMap} {P : List (Nat × Nat)} (h : m.WF) (ha : m.Abs P) :
    m.items = P.length := by
  rw [← pairs_length h, ha.length_eq, List.length_map]

theorem filter_set {α : Type} (p : α → Bool) : ∀ (l : List α) (i : Nat) (x y : α),
    l[i]? = some y → p y = false → p x = true → ((l.set i x).filter p).Perm (x :: l.filter p)
  | [], i, x, y, h, _, _ => by simp at h
  | z :: zs, 0, x, y, h, hy, hx => by
    simp at h
    subst h
    simp [hx, hy]
  | z :: zs, i + 1, x, y, h, hy, hx => by
    have ih := filter_set p zs i x y (by simpa using h) hy hx
    simp only [List.set_cons_succ, List.filter_cons]
    split
    · exact (ih.cons z).trans (List.Perm.swap x z _)
    · exact ih

/-! the probe loop of insert -/

theorem freeLoop_mod {arr : List Nat} {p : Nat} (hl : arr.length = 2 ^ p) (fuel i : Nat) :
    freeLoop arr fuel (i % arr.length) = freeLoop arr fuel i := by
  cases fuel with
  | zero => rfl
  | succ f =>
    simp only [freeLoop]
    rw [getElem?_mask hl, getElem?_mask hl, sl_mod]
    have : maskIdx arr.length (i % arr.length) = maskIdx arr.length i := by
      rw [hl, maskIdx_pow, maskIdx_pow, Nat.mod_mod]
    rw [this]

theorem freeLoop_stop {arr : List Nat} {p : Nat} (hl : arr.length = 2 ^ p) :
    ∀ (d i : Nat), (∀ e, e < d → sl arr (i + e) ≠ 0) → sl arr (i + d) = 0 →
    ∀ fuel, freeLoop arr (d + 1 + fuel) i = .done ((i + d) % arr.length)
  | 0, i, _, h0, fuel => by
    have : 0 + 1 + fuel = fuel + 1 := by omega
    rw [this]
    simp only [freeLoop]
    rw [getElem?_mask hl]
    simp only [Nat.add_zero] at h0
    simp [h0]
    rw [hl, maskIdx_pow]
  | d + 1, i, hb, h0, fuel => by
    have e1 : d + 1 + 1 + fuel = (d + 1 + fuel) + 1 := by omega
    rw [e1]
    conv_lhs => unfold freeLoop
    simp only
    rw [getElem?_mask hl]
    have hh := hb 0 (by omega)
    simp only [Nat.add_zero] at hh
    simp only [hh, ne_eq, not_false_eq_true, if_true]
    have : maskIdx arr.length i + 1 = i % arr.length + 1 := by rw [hl, maskIdx_pow]
    rw [this, ← freeLoop_mod hl, Nat.mod_add_mod, freeLoop_mod hl]
    rw [freeLoop_stop hl d (i + 1) (fun e he => by
      have := hb (e + 1) (by omega)
      rwa [show i + 1 + e = i + (e + 1) by omega]) (by
      rwa [show i + 1 + d = i + (d + 1) by omega])]
    congr 2; omega

theorem MPath.set {hash : Nat → Nat} {arr : List Nat} (hn : 0 < arr.length)
    (hp : MPath hash arr) {k d : Nat} (hk : k ≠ 0)
    (h0 : sl arr (hash k + d) = 0) (hb : ∀ e, e < d → sl arr (hash k + e) ≠ 0) :
    MPath hash (arr.set ((hash k + d) % arr.length) k) := by
  have mono : ∀ j, sl arr j ≠ 0 → sl (arr.set ((hash k + d) % arr.length) k) j = sl arr j := by
    intro j hj
    rw [sl_set hn, if_neg]
    intro hx
    apply hj
    rw [← h0]; unfold sl; rw [hx]
  intro i hi hne
  rw [List.length_set] at hi ⊢
  by_cases hii : i = (hash k + d) % arr.length
  · have hslk : sl (arr.set ((hash k + d) % arr.length) k) i = k := by
      rw [sl_set hn, if_pos]
      rw [hii, Nat.mod_mod]
    refine ⟨d, by rw [hslk, ← hii], fun e he => ?_⟩
    rw [hslk, mono _ (hb e he)]
    exact hb e he
  · have hsl : sl (arr.set ((hash k + d) % arr.length) k) i = sl arr i := by
      rw [sl_set hn, if_neg]
      rw [Nat.mod_eq_of_lt hi]
      exact hii
    rw [hsl] at hne ⊢
    obtain ⟨d', h1, h2⟩ := hp i hi hne
    exact ⟨d', h1, fun e he => by rw [mono _ (h2 e he)]; exact h2 e he⟩

theorem insertRaw_spec {m : LpMultiMap} {P : List (Nat × Nat)} (h : m.WF) (ha : m.Abs P) {k : Nat}
    (v : Nat) (hk : k ≠ 0) (hlt : m.items < m.keys.length) :
    ∃ m', Returns (fun n => m.insertRaw n k v) m' ∧ m'.WF ∧ m'.Abs ((k, v) :: P) ∧
      m'.keys.length = m.keys.length ∧ m'.a = m.a := by
  obtain ⟨p, hp⟩ := h.pow
  obtain ⟨d, hs, hb⟩ := exists_stop h.pos (hash64 m.a k) 0 (Or.inl (h.free hlt))
  have h0 : sl m.keys (hash64 m.a k + d) = 0 := by rcases hs with hs | hs <;> exact hs
  have hb' : ∀ e, e < d → sl m.keys (hash64 m.a k + e) ≠ 0 := fun e he => (hb e he).1
  let i := (hash64 m.a k + d) % m.keys.length
  have hi : i < m.keys.length := Nat.mod_lt _ h.pos
  have hki : m.keys[i]? = some 0 := by
    rw [List.getElem?_eq_getElem hi, ← sl_getElem _ _ hi]
    simp only [i]
    rw [sl_mod, h0]
  have hvi : i < m.vals.length := by rw [h.vlen]; exact hi
  refine ⟨{ m with keys := m.keys.set i k, vals := m.vals.set i (some v), items := m.items + 1 },
    ?_, ?_, ?_, by simp, rfl⟩
  · refine ⟨d + 1, fun n hn => ?_⟩
    obtain ⟨f, rfl⟩ : ∃ f, n = d + 1 + f := ⟨n - (d + 1), by omega⟩
    simp only [insertRaw]
    rw [freeLoop_stop hp d _ hb' h0 f]
    rfl
  · refine ⟨by simpa using h.pow, by simp [h.vlen], h.path.set h.pos hk h0 hb', ?_⟩
    simp only
    rw [occ_set hi hki hk, h.cnt]
  · unfold Abs pairs
    simp only
    have hz : (m.keys.set i k).zip (m.vals.set i (some v)) = (m.keys.zip m.vals).set i (k, some v) := by
      apply List.ext_getElem?
      intro j
      rw [List.getElem?_set]
      by_cases hij : i = j
      · subst hij
        rw [if_pos rfl, if_pos (by simp; omega)]
        rw [List.getElem?_zip_eq_some]
        exact ⟨List.getElem?_set_self hi, List.getElem?_set_self hvi⟩
      · rw [if_neg hij, List.zip_eq_zipWith, List.zip_eq_zipWith, List.getElem?_zipWith,
          List.getElem?_zipWith, List.getElem?_set_ne hij, List.getElem?_set_ne hij]
    rw [hz]
    have hzi : (m.keys.zip m.vals)[i]? = some (0, m.vals[i]) := by
      rw [List.getElem?_zip_eq_some]
      exact ⟨hki, List.getElem?_eq_getElem hvi⟩
    refine (filter_set _ _ _ _ _ hzi (by simp) (by simp [hk])).trans ?_
    simp only [List.map_cons]
    exact ha.cons _

/-! lists of slots -/

def SlotsOk (l : List (Nat × Option Nat)) : Prop := ∀ p ∈ l, p.1 ≠ 0 → p.2 ≠ none

def keep (Q : Nat → Bool) (p : Nat × Option Nat) : Option (Nat × Nat) :=
  if p.1 ≠ 0 ∧ Q p.1 = true then p.2.map (fun v => (p.1, v)) else none

theorem abs_slotsOk {m : LpMultiMap} {P : List (Nat × Nat)} (ha : m.Abs P) :
    SlotsOk (m.keys.zip m.vals) := by
  intro p hp h0
  have : p ∈ m.pairs := List.mem_filter.2 ⟨hp, by simp [h0]⟩
  obtain ⟨q, _, rfl⟩ := List.mem_map.1 (ha.mem_iff.1 this)
  simp

theorem keep_slots {m : LpMultiMap} {P : List (Nat × Nat)} (Q : Nat → Bool) (ha : m.Abs P)
    (h0 : ∀ q ∈ P, q.1 ≠ 0) :
    ((m.keys.zip m.vals).filterMap (keep Q)).Perm (P.filter (fun q => Q q.1)) := by
  have e : (m.keys.zip m.vals).filterMap (keep Q) = m.pairs.filterMap (keep Q) := by
    unfold pairs
    rw [List.filterMap_filter]
    congr 1
    funext p
    unfold keep
    by_cases hp : p.1 = 0 <;> simp [hp]
  rw [e]
  refine (ha.filterMap _).trans ?_
  rw [List.filterMap_map]
  have : (P.filterMap (keep Q ∘ fun q => (q.1, some q.2))) = P.filter (fun q => Q q.1) := by
    rw [← List.filterMap_eq_filter]
    apply List.filterMap_congr
    intro q hq
    have := h0 q hq
    simp only [Function.comp, keep, this, ne_eq, not_false_eq_true, true_and, Option.map_some,
      Option.guard]
  rw [this]

theorem abs_perm {m : LpMultiMap} {P P' : List (Nat × Nat)} (ha : m.Abs P) (h : P.Perm P') :
    m.Abs P' := List.Perm.trans ha (h.map _)

theorem wf_empty (m : LpMultiMap) {n : Nat} (hn : 0 < n) :
    WF { m with keys := List.replicate (nextPow2 n) 0, vals := List.replicate (nextPow2 n) none,
                items := 0 } where
  pow := by obtain ⟨k, hk⟩ := nextPow2_isPow hn; exact ⟨k, by simp [hk]⟩
  vlen := by simp
  path := by
    intro i hi h
    exfalso; apply h
    have := sl_mem (arr := List.replicate (nextPow2 n) 0) (by simp at hi ⊢; omega) i
    exact List.eq_of_mem_replicate this
  cnt := by rw [occ_replicate]

theorem abs_empty (m : LpMultiMap) (n : Nat) :
    Abs { m with keys := List.replicate n 0, vals := List.replicate n none, items := 0 } [] := by
  unfold Abs pairs
  simp only [List.map_nil]
  rw [List.perm_nil, List.filter_eq_nil_iff]
  intro p hp
  simp only [List.zip_replicate'] at hp
  simp [List.eq_of_mem_replicate hp]

theorem reinsertAll_spec : ∀ (l : List (Nat × Option Nat)) {m : LpMultiMap} {P : List (Nat × Nat)},
    m.WF → m.Abs P → SlotsOk l → m.items + l.length ≤ m.keys.length →
    ∃ m', Returns (fun n => reinsertAll n l m) m' ∧ m'.WF ∧
      m'.Abs (l.filterMap (keep fun _ => true) ++ P) ∧ m'.keys.length = m.keys.length ∧ m'.a = m.a
  | [], m, P, h, ha, _, _ => ⟨m, Returns.pure _, h, ha, rfl, rfl⟩
  | (k, o) :: xs, m, P, h, ha, hok, hle => by
    simp only [List.length_cons] at hle
    by_cases hk : k = 0
    · subst hk
      obtain ⟨m', hr, h'⟩ := reinsertAll_spec xs h ha (fun p hp => hok p (by simp [hp])) (by omega)
      refine ⟨m', ?_, ?_⟩
      · simpa [reinsertAll] using hr
      · simpa [keep] using h'
    · cases o with
      | none => exact absurd rfl (hok (k, none) (by simp) hk)
      | some v =>
        obtain ⟨m1, hr1, hw1, ha1, hl1, haa1⟩ := insertRaw_spec h ha v hk (by omega)
        have hi := items_eq h ha
        have hi1 := items_eq hw1 ha1
        simp only [List.length_cons] at hi1
        obtain ⟨m', hr, hw, ha', hl, haa⟩ := reinsertAll_spec xs hw1 ha1
          (fun p hp => hok p (by simp [hp])) (by omega)
        refine ⟨m', ?_, hw, ?_, hl.trans hl1, haa.trans haa1⟩
        · have := hr1.bind (g := fun n r => reinsertAll n xs r) hr
          simpa [reinsertAll, hk] using this
        · refine abs_perm ha' ?_
          have : ((k, some v) :: xs).filterMap (keep fun _ => true) =
              (k, v) :: xs.filterMap (keep fun _ => true) := by
            simp [keep, hk]
          rw [this]
          exact List.perm_middle

theorem rehash_spec {m : LpMultiMap} {P : List (Nat × Nat)} (h : m.WF) (ha : m.Abs P)
    (h0 : ∀ q ∈ P, q.1 ≠ 0) {n : Nat} (hn : m.keys.length ≤ n) :
    ∃ m', Returns (fun fl => m.rehash fl n) m' ∧ m'.WF ∧ m'.Abs P ∧
      m'.keys.length = nextPow2 n ∧ m'.a = m.a := by
  have hpos := h.pos
  obtain ⟨m', hr, hw, ha', hl, haa⟩ := reinsertAll_spec (m.keys.zip m.vals)
    (wf_empty m (n := n) (by omega)) (abs_empty m (nextPow2 n)) (abs_slotsOk ha) (by
      have := le_nextPow2 n
      have := h.vlen
      simp; omega)
  refine ⟨m', hr, hw, abs_perm ha' ?_, by simpa using hl, haa⟩
  simp only [List.append_nil]
  simpa using keep_slots (fun _ => true) ha h0

theorem insert_spec {m : LpMultiMap} {P : List (Nat × Nat)} (h : m.WF) (ha : m.Abs P)
    (h0 : ∀ q ∈ P, q.1 ≠ 0) {k : Nat} (v : Nat) (hk : k ≠ 0) :
    ∃ m', Returns (fun n => m.insert n k v) m' ∧ m'.WF ∧
      m'.Abs ((k, v) :: P) ∧ m.keys.length ≤ m'.keys.length ∧ m'.a = m.a := by
  have hpos := h.pos
  have hle := h.items_le
  unfold LpMultiMap.insert
  simp only [capacity, hpos.ne', if_false]
  by_cases hg : 1 ≤ m.items / m.keys.length
  · simp only [hg, if_true]
    obtain ⟨m1, hr1, hw1, ha1, hl1, haa1⟩ := rehash_spec h ha h0 (n := m.keys.length * 2) (by omega)
    have hbig := le_nextPow2 (m.keys.length * 2)
    have hi := items_eq h ha
    have hi1 := items_eq hw1 ha1
    obtain ⟨m', hr, hw, ha', hl, haa⟩ := insertRaw_spec hw1 ha1 v hk (by omega)
    exact ⟨m', hr1.bind (g := fun n m' => insertRaw n m' k v) hr, hw, ha', by omega, haa.trans haa1⟩
  · simp only [hg, if_false]
    have : m.items < m.keys.length := by
      by_contra hc
      exact hg ((Nat.one_le_div_iff hpos).2 (by omega))
    obtain ⟨m', hr, hw, ha', hl, haa⟩ := insertRaw_spec h ha v hk this
    exact ⟨m', hr, hw, ha', by omega, haa⟩

theorem insertAll_spec : ∀ (l : List (Nat × Option Nat)) {m : LpMultiMap} {P : List (Nat × Nat)},
    m.WF → m.Abs P → (∀ q ∈ P, q.1 ≠ 0) → SlotsOk l →
    ∃ m', Returns (fun n => insertAll n l m) m' ∧ m'.WF ∧
      m'.Abs (l.filterMap (keep fun _ => true) ++ P) ∧ m.keys.length ≤ m'.keys.length ∧ m'.a = m.a
  | [], m, P, h, ha, _, _ => ⟨m, Returns.pure _, h, ha, le_rfl, rfl⟩
  | (k, o) :: xs, m, P, h, ha, h0, hok => by
    by_cases hk : k = 0
    · subst hk
      obtain ⟨m', hr, h'⟩ := insertAll_spec xs h ha h0 (fun p hp => hok p (by simp [hp]))
      refine ⟨m', ?_, ?_⟩
      · simpa [insertAll] using hr
      · simpa [keep] using h'
    · cases o with
      | none => exact absurd rfl (hok (k, none) (by simp) hk)
      | some v =>
        obtain ⟨m1, hr1, hw1, ha1, hl1, haa1⟩ := insert_spec h ha h0 v hk
        obtain ⟨m', hr, hw, ha', hl, haa⟩ := insertAll_spec xs hw1 ha1 (by
          intro q hq
          rcases List.mem_cons.1 hq with rfl | hq
          · exact hk
          · exact h0 q hq) (fun p hp => hok p (by simp [hp]))
        refine ⟨m', ?_, hw, ?_, hl1.trans hl, haa.trans haa1⟩
        · have := hr1.bind (g := fun n r => insertAll n xs r) hr
          simpa [insertAll, hk] using this
        · refine abs_perm ha' ?_
          have : ((k, some v) :: xs).filterMap (keep fun _ => true) =
              (k, v) :: xs.filterMap (keep fun _ => true) := by
            simp [keep, hk]
          rw [this]
          exact List.perm_middle

theorem merge_spec {m t : LpMultiMap} {P R : List (Nat × Nat)} (h : m.WF) (ha : m.Abs P)
    (h0 : ∀ q ∈ P, q.1 ≠ 0) (ha2 : t.Abs R) (h02 : ∀ q ∈ R, q.1 ≠ 0) :
    ∃ m', Returns (fun n => m.merge n t) m' ∧ m'.WF ∧ m'.Abs (R ++ P) := by
  obtain ⟨m1, hr1, hw1, ha1, hl1, haa1⟩ := rehash_spec h ha h0
    (n := m.keys.length + t.keys.length) (by omega)
  obtain ⟨m', hr, hw, ha', hl, haa⟩ := insertAll_spec (t.keys.zip t.vals) hw1 ha1 h0 (abs_slotsOk ha2)
  refine ⟨m', hr1.bind (g := fun n m' => insertAll n (t.keys.zip t.vals) m') hr, hw, ?_⟩
  refine abs_perm ha' (List.Perm.append_right _ ?_)
  simpa using keep_slots (fun _ => true) ha2 h02

theorem reinsertFiltered_spec (F : LpSet) (hF : F.WF) (hF0 : 0 ∈ F.arr) :
    ∀ (l : List (Nat × Option Nat)) {m : LpMultiMap} {P : List (Nat × Nat)},
    m.WF → m.Abs P → SlotsOk l → m.items + l.length ≤ m.keys.length →
    ∃ m', Returns (fun n => reinsertFiltered n F l m) m' ∧ m'.WF ∧
      m'.Abs (l.filterMap (keep fun k => decide (k ∉ F.keys)) ++ P) ∧
      m'.keys.length = m.keys.length ∧ m'.a = m.a
  | [], m, P, h, ha, _, _ => ⟨m, Returns.pure _, h, ha, rfl, rfl⟩
  | (k, o) :: xs, m, P, h, ha, hok, hle => by
    simp only [List.length_cons] at hle
    by_cases hk : k = 0
    · subst hk
      obtain ⟨m', hr, h'⟩ := reinsertFiltered_spec F hF hF0 xs h ha
        (fun p hp => hok p (by simp [hp])) (by omega)
      refine ⟨m', ?_, ?_⟩
      · simpa [reinsertFiltered] using hr
      · simpa [keep] using h'
    · cases o with
      | none => exact absurd rfl (hok (k, none) (by simp) hk)
      | some v =>
        have hc := LpSet.contains_spec hF hk (Or.inl hF0)
        by_cases hin : k ∈ F.keys
        · obtain ⟨m', hr, h'⟩ := reinsertFiltered_spec F hF hF0 xs h ha
            (fun p hp => hok p (by simp [hp])) (by omega)
          refine ⟨m', ?_, ?_⟩
          · have := hc.bind (g := fun n c => if c then reinsertFiltered n F xs m
              else (insertRaw n m k v).bind fun r => reinsertFiltered n F xs r) (b := m')
              (by simpa [hin] using hr)
            simpa [reinsertFiltered, hk] using this
          · simpa [keep, hin] using h'
        · obtain ⟨m1, hr1, hw1, ha1, hl1, haa1⟩ := insertRaw_spec h ha v hk (by omega)
          have hi := items_eq h ha
          have hi1 := items_eq hw1 ha1
          simp only [List.length_cons] at hi1
          obtain ⟨m', hr, hw, ha', hl, haa⟩ := reinsertFiltered_spec F hF hF0 xs hw1 ha1
            (fun p hp => hok p (by simp [hp])) (by omega)
          refine ⟨m', ?_, hw, ?_, hl.trans hl1, haa.trans haa1⟩
          · have := hc.bind (g := fun n c => if c then reinsertFiltered n F xs m
              else (insertRaw n m k v).bind fun r => reinsertFiltered n F xs r) (b := m')
              (by simpa [hin] using hr1.bind (g := fun n r => reinsertFiltered n F xs r) hr)
            simpa [reinsertFiltered, hk] using this
          · refine abs_perm ha' ?_
            have : ((k, some v) :: xs).filterMap (keep fun k => decide (k ∉ F.keys)) =
                (k, v) :: xs.filterMap (keep fun k => decide (k ∉ F.keys)) := by
              simp [keep, hk, hin]
            rw [this]
            exact List.perm_middle

theorem insertFiltered_spec (F : LpSet) (hF : F.WF) (hF0 : 0 ∈ F.arr) :
    ∀ (l : List (Nat × Option Nat)) {m : LpMultiMap} {P : List (Nat × Nat)},
    m.WF → m.Abs P → (∀ q ∈ P, q.1 ≠ 0) → SlotsOk l →
    ∃ m', Returns (fun n => insertFiltered n F l m) m' ∧ m'.WF ∧
      m'.Abs (l.filterMap (keep fun k => decide (k ∉ F.keys)) ++ P) ∧
      m.keys.length ≤ m'.keys.length ∧ m'.a = m.a
  | [], m, P, h, ha, _, _ => ⟨m, Returns.pure _, h, ha, le_rfl, rfl⟩
  | (k, o) :: xs, m, P, h, ha, h0, hok => by
    by_cases hk : k = 0
    · subst hk
      obtain ⟨m', hr, h'⟩ := insertFiltered_spec F hF hF0 xs h ha h0
        (fun p hp => hok p (by simp [hp]))
      refine ⟨m', ?_, ?_⟩
      · simpa [insertFiltered] using hr
      · simpa [keep] using h'
    · cases o with
      | none => exact absurd rfl (hok (k, none) (by simp) hk)
      | some v =>
        have hc := LpSet.contains_spec hF hk (Or.inl hF0)
        by_cases hin : k ∈ F.keys
        · obtain ⟨m', hr, h'⟩ := insertFiltered_spec F hF hF0 xs h ha h0
            (fun p hp => hok p (by simp [hp]))
          refine ⟨m', ?_, ?_⟩
          · have := hc.bind (g := fun n c => if c then insertFiltered n F xs m
              else (LpMultiMap.insert n m k v).bind fun r => insertFiltered n F xs r) (b := m')
              (by simpa [hin] using hr)
            simpa [insertFiltered, hk] using this
          · simpa [keep, hin] using h'
        · obtain ⟨m1, hr1, hw1, ha1, hl1, haa1⟩ := insert_spec h ha h0 v hk
          obtain ⟨m', hr, hw, ha', hl, haa⟩ := insertFiltered_spec F hF hF0 xs hw1 ha1 (by
            intro q hq
            rcases List.mem_cons.1 hq with rfl | hq
            · exact hk
            · exact h0 q hq) (fun p hp => hok p (by simp [hp]))
          refine ⟨m', ?_, hw, ?_, hl1.trans hl, haa.trans haa1⟩
          · have := hc.bind (g := fun n c => if c then insertFiltered n F xs m
              else (LpMultiMap.insert n m k v).bind fun r => insertFiltered n F xs r) (b := m')
              (by simpa [hin] using hr1.bind (g := fun n r => insertFiltered n F xs r) hr)
            simpa [insertFiltered, hk] using this
          · refine abs_perm ha' ?_
            have : ((k, some v) :: xs).filterMap (keep fun k => decide (k ∉ F.keys)) =
                (k, v) :: xs.filterMap (keep fun k => decide (k ∉ F.keys)) := by
              simp [keep, hk, hin]
            rw [this]
            exact List.perm_middle

theorem mergeFilter_spec {m t : LpMultiMap} {P R : List (Nat × Nat)} {F : LpSet} (h : m.WF)
    (ha : m.Abs P) (h0 : ∀ q ∈ P, q.1 ≠ 0) (ha2 : t.Abs R) (h02 : ∀ q ∈ R, q.1 ≠ 0)
    (hF : F.WF) (hF0 : 0 ∈ F.arr) :
    ∃ m', Returns (fun n => m.mergeFilter n t F) m' ∧ m'.WF ∧
      m'.Abs ((R ++ P).filter (fun q => decide (q.1 ∉ F.keys))) := by
  have hpos := h.pos
  obtain ⟨m1, hr1, hw1, ha1, hl1, haa1⟩ := reinsertFiltered_spec F hF hF0 (m.keys.zip m.vals)
    (wf_empty m (n := m.keys.length + t.keys.length) (by omega)) (abs_empty m _) (abs_slotsOk ha) (by
      have := le_nextPow2 (m.keys.length + t.keys.length)
      simp; omega)
  have hk1 := keep_slots (fun k => decide (k ∉ F.keys)) ha h0
  have hk2 := keep_slots (fun k => decide (k ∉ F.keys)) ha2 h02
  rw [List.append_nil] at ha1
  have ha1' := abs_perm ha1 hk1
  obtain ⟨m', hr, hw, ha', hl, haa⟩ := insertFiltered_spec F hF hF0 (t.keys.zip t.vals) hw1 ha1'
    (fun q hq => h0 q (List.mem_filter.1 hq).1) (abs_slotsOk ha2)
  refine ⟨m', hr1.bind (g := fun n m' => insertFiltered n F (t.keys.zip t.vals) m') hr, hw, ?_⟩
  rw [List.filter_append]
  exact abs_perm ha' (List.Perm.append_right _ hk2)

/-! get -/

theorem mask_eq {keys : List Nat} {p : Nat} (hl : keys.length = 2 ^ p) (i : Nat) :
    maskIdx keys.length i = i % keys.length := by rw [hl, maskIdx_pow]

theorem getLoop_mod {k : Nat} {keys : List Nat} {p : Nat} (hl : keys.length = 2 ^ p)
    (fuel i f l : Nat) : getLoop k keys fuel (i % keys.length) f l = getLoop k keys fuel i f l := by
  cases fuel with
  | zero => rfl
  | succ n =>
    simp only [getLoop]
    have : maskIdx keys.length (i % keys.length) = maskIdx keys.length i := by
      rw [mask_eq hl, mask_eq hl, Nat.mod_mod]
    rw [this]

theorem getLoop_step {k : Nat} {keys : List Nat} {p : Nat} (hl : keys.length = 2 ^ p)
    {i : Nat} (f l fuel : Nat) (h0 : sl keys i ≠ 0) :
    getLoop k keys (fuel + 1) i f l = getLoop k keys fuel (i + 1)
      (if sl keys i ≠ k ∧ i % keys.length = f then (f + 1) % keys.length else f)
      ((l + 1) % keys.length) := by
  conv_lhs => unfold getLoop
  simp only
  rw [getElem?_mask hl]
  simp only [h0, false_and, if_false, mask_eq hl]
  rw [← getLoop_mod hl fuel (i + 1), ← Nat.mod_add_mod i, getLoop_mod hl]

theorem getLoop_skip {k : Nat} {keys : List Nat} {p : Nat} (hl : keys.length = 2 ^ p) :
    ∀ (d i fuel : Nat), (∀ e, e < d → sl keys (i + e) ≠ 0 ∧ sl keys (i + e) ≠ k) →
    getLoop k keys (d + fuel) i (i % keys.length) (i % keys.length) =
      getLoop k keys fuel (i + d) ((i + d) % keys.length) ((i + d) % keys.length)
  | 0, i, fuel, _ => by simp
  | d + 1, i, fuel, h => by
    have h0 := h 0 (by omega)
    simp only [Nat.add_zero] at h0
    rw [show d + 1 + fuel = (d + fuel) + 1 by omega, getLoop_step hl _ _ _ h0.1]
    rw [if_pos ⟨h0.2, rfl⟩, Nat.mod_add_mod, getLoop_skip hl d (i + 1) fuel (fun e he => by
      have := h (e + 1) (by omega)
      rwa [show i + 1 + e = i + (e + 1) by omega])]
    rw [show i + 1 + d = i + (d + 1) by omega]

theorem getLoop_tail {k : Nat} {keys : List Nat} {p : Nat} (hl : keys.length = 2 ^ p) :
    ∀ (d i f fuel : Nat), (∀ e, e < d → sl keys (i + e) ≠ 0) → sl keys (i + d) = 0 →
      (∀ e, e ≤ d → (i + e) % keys.length ≠ f) →
    getLoop k keys (d + 1 + fuel) i f (i % keys.length) = .done (f, (i + d + 1) % keys.length)
  | 0, i, f, fuel, _, h0, hf => by
    rw [show 0 + 1 + fuel = fuel + 1 by omega]
    unfold getLoop
    simp only
    rw [getElem?_mask hl]
    have hf0 := hf 0 (by omega)
    simp only [Nat.add_zero] at h0 hf0 ⊢
    simp only [h0, mask_eq hl, hf0, and_false, if_false, if_true]
    rw [Nat.mod_add_mod]
  | d + 1, i, f, fuel, hb, h0, hf => by
    have hb0 := hb 0 (by omega)
    have hf0 := hf 0 (by omega)
    simp only [Nat.add_zero] at hb0 hf0
    rw [show d + 1 + 1 + fuel = (d + 1 + fuel) + 1 by omega, getLoop_step hl _ _ _ hb0]
    rw [if_neg (fun h => hf0 h.2), Nat.mod_add_mod]
    rw [getLoop_tail hl d (i + 1) f fuel (fun e he => by
        have := hb (e + 1) (by omega)
        rwa [show i + 1 + e = i + (e + 1) by omega])
      (by rwa [show i + 1 + d = i + (d + 1) by omega])
      (fun e he => by
        have := hf (e + 1) (by omega)
        rwa [show i + 1 + e = i + (e + 1) by omega])]
    rw [show i + 1 + d + 1 = i + (d + 1) + 1 by omega]

theorem getLoop_none {k : Nat} {keys : List Nat} {p : Nat} (hl : keys.length = 2 ^ p)
    (z h fuel : Nat) (hb : ∀ e, e < z → sl keys (h + e) ≠ 0 ∧ sl keys (h + e) ≠ k)
    (h0 : sl keys (h + z) = 0) :
    getLoop k keys (z + 1 + fuel) h (h % keys.length) (h % keys.length) =
      .done (keys.length, keys.length) := by
  rw [show z + 1 + fuel = z + (fuel + 1) by omega, getLoop_skip hl z h _ hb]
  unfold getLoop
  simp only
  rw [getElem?_mask hl]
  simp [h0, mask_eq hl]

theorem mod_ne {n i e f : Nat} (he : e < n) (h : 0 < e) : (i + e) % n ≠ i % n := by
  intro hc
  have : (i + e) % n = (i + 0) % n := by simpa using hc
  have := (Nat.ModEq.add_left_cancel' i this : e ≡ 0 [MOD n])
  rw [Nat.ModEq, Nat.mod_eq_of_lt he, Nat.zero_mod] at this
  omega

theorem getLoop_some {k : Nat} {keys : List Nat} {p : Nat} (hl : keys.length = 2 ^ p) (hk : k ≠ 0)
    (z h f fuel : Nat) (hfz : f < z) (hzn : z < keys.length)
    (hbf : ∀ e, e < f → sl keys (h + e) ≠ k) (hf : sl keys (h + f) = k)
    (hb : ∀ e, e < z → sl keys (h + e) ≠ 0) (h0 : sl keys (h + z) = 0) :
    getLoop k keys (z + 1 + fuel) h (h % keys.length) (h % keys.length) =
      .done ((h + f) % keys.length, (h + z + 1) % keys.length) := by
  obtain ⟨r, rfl⟩ : ∃ r, z = f + 1 + r := ⟨z - (f + 1), by omega⟩
  rw [show f + 1 + r + 1 + fuel = f + ((r + 1 + fuel) + 1) by omega,
    getLoop_skip hl f h _ (fun e he => ⟨hb e (by omega), hbf e he⟩),
    getLoop_step hl _ _ _ (by rw [hf]; exact hk), if_neg (by simp [hf]), Nat.mod_add_mod,
    getLoop_tail hl r (h + f + 1) _ fuel (fun e he => by
        have := hb (f + 1 + e) (by omega)
        rwa [show h + f + 1 + e = h + (f + 1 + e) by omega])
      (by rwa [show h + f + 1 + r = h + (f + 1 + r) by omega])
      (fun e he => by
        rw [show h + f + 1 + e = h + f + (1 + e) by omega]
        exact mod_ne (f := 0) (by omega) (by omega))]
  rw [show h + f + 1 + r + 1 = h + (f + 1 + r) + 1 by omega]

/-! the client loop -/

theorem nextMatch_mod {k : Nat} {keys : List Nat} {p : Nat} (hl : keys.length = 2 ^ p)
    (b fuel i : Nat) : nextMatch k keys b fuel (i % keys.length) = nextMatch k keys b fuel i := by
  cases fuel with
  | zero => rfl
  | succ n =>
    simp only [nextMatch]
    rw [mask_eq hl, mask_eq hl, Nat.mod_add_mod]

theorem nextMatch_spec {k : Nat} {keys : List Nat} {p : Nat} (hl : keys.length = 2 ^ p) (hk : k ≠ 0)
    (b : Nat) : ∀ (r i fuel : Nat),
    (∀ e, 1 ≤ e → e ≤ r → sl keys (i + e) ≠ k ∧ (i + e) % keys.length ≠ b) →
    ((i + (r + 1)) % keys.length = b ∨ sl keys (i + (r + 1)) = k) →
    nextMatch k keys b (r + 1 + fuel) i = .done ((i + (r + 1)) % keys.length)
  | 0, i, fuel, _, hs => by
    rw [show 0 + 1 + fuel = fuel + 1 by omega]
    unfold nextMatch
    simp only [Nat.zero_add] at hs ⊢
    rw [getElem?_mask hl, mask_eq hl]
    by_cases hb : (i + 1) % keys.length = b
    · simp [hb]
    · have := hs.resolve_left hb
      simp [hb, this, hk]
  | r + 1, i, fuel, hb, hs => by
    have h1 := hb 1 (by omega) (by omega)
    rw [show r + 1 + 1 + fuel = (r + 1 + fuel) + 1 by omega]
    unfold nextMatch
    simp only
    rw [getElem?_mask hl, mask_eq hl]
    simp only [h1.2, if_false, h1.1, ne_eq, not_false_eq_true, or_true, if_true]
    rw [nextMatch_mod hl, nextMatch_spec hl hk b r (i + 1) fuel (fun e h1 h2 => by
        have := hb (e + 1) (by omega) (by omega)
        rwa [show i + 1 + e = i + (e + 1) by omega])
      (by rwa [show i + 1 + (r + 1) = i + (r + 1 + 1) by omega])]
    rw [show i + 1 + (r + 1) = i + (r + 1 + 1) by omega]

/-- Value in a slot (cyclic index). -/
def vl (m : LpMultiMap) (i : Nat) : Nat := (m.vals.getD (i % m.keys.length) none).getD 0

/-- The values of the slots `i, …, i + r - 1` (cyclically) with key `k`. -/
def mv (k : Nat) (m : LpMultiMap) : Nat → Nat → List Nat
  | _, 0 => []
  | i, r + 1 => if sl m.keys i = k then m.vl i :: mv k m (i + 1) r else mv k m (i + 1) r

theorem mv_skip (k : Nat) (m : LpMultiMap) : ∀ (d i r : Nat),
    (∀ e, e < d → sl m.keys (i + e) ≠ k) → mv k m i (d + r) = mv k m (i + d) r
  | 0, i, r, _ => by simp
  | d + 1, i, r, h => by
    rw [show d + 1 + r = (d + r) + 1 by omega, mv, if_neg (by simpa using h 0 (by omega)),
      mv_skip k m d (i + 1) r (fun e he => by
        have := h (e + 1) (by omega)
        rwa [show i + 1 + e = i + (e + 1) by omega])]
    rw [show i + 1 + d = i + (d + 1) by omega]

theorem vals_at {m : LpMultiMap} (hw : m.WF) (hs : SlotsOk (m.keys.zip m.vals)) {i : Nat}
    (h : sl m.keys i ≠ 0) : m.vals[i % m.keys.length]? = some (some (m.vl i)) := by
  have hi : i % m.keys.length < m.keys.length := Nat.mod_lt _ hw.pos
  have hv : i % m.keys.length < m.vals.length := by rw [hw.vlen]; exact hi
  have hmem : (m.keys[i % m.keys.length], m.vals[i % m.keys.length]) ∈ m.keys.zip m.vals := by
    rw [List.mem_iff_getElem?]
    refine ⟨i % m.keys.length, ?_⟩
    rw [List.getElem?_zip_eq_some]
    exact ⟨List.getElem?_eq_getElem hi, List.getElem?_eq_getElem hv⟩
  have hne := hs _ hmem (by
    simp only
    rw [← sl_getElem _ _ hi, sl_mod]
    exact h)
  simp only at hne
  rw [List.getElem?_eq_getElem hv]
  congr 1
  unfold vl
  rw [List.getD_eq_getElem _ _ hv]
  cases hvv : m.vals[i % m.keys.length] with
  | none => exact absurd hvv hne
  | some v => rfl

theorem collect_spec {k : Nat} {m : LpMultiMap} (hw : m.WF) (hs : SlotsOk (m.keys.zip m.vals))
    (hk : k ≠ 0) (inner : Nat) : ∀ (r i fuel : Nat), 1 ≤ r → sl m.keys i = k →
    (∀ e, e < r → (i + e) % m.keys.length ≠ (i + r) % m.keys.length) → r ≤ inner → r + 1 ≤ fuel →
    collect k m inner ((i + r) % m.keys.length) fuel (i % m.keys.length) = .done (mv k m i r) := by
  intro r
  induction r using Nat.strong_induction_on with
  | _ r ih =>
    intro i fuel hr hi hb hin hfu
    obtain ⟨p, hp⟩ := hw.pow
    obtain ⟨f, rfl⟩ : ∃ f, fuel = f + 1 := ⟨fuel - 1, by omega⟩
    have hne := hb 0 (by omega)
    simp only [Nat.add_zero] at hne
    unfold collect
    simp only [hne, if_false]
    rw [vals_at hw hs (by rw [hi]; exact hk)]
    simp only
    rw [nextMatch_mod hp]
    obtain ⟨r', rfl⟩ : ∃ r', r = r' + 1 := ⟨r - 1, by omega⟩
    by_cases hex : ∃ j, 1 ≤ j ∧ j < r' + 1 ∧ sl m.keys (i + j) = k
    · -- the first further match
      let j := Nat.find hex
      obtain ⟨hj1, hj2, hj3⟩ := Nat.find_spec hex
      have hjmin : ∀ e, 1 ≤ e → e < j → sl m.keys (i + e) ≠ k := by
        intro e he hlt hc
        exact Nat.find_min hex hlt ⟨he, by have : j < r' + 1 := hj2; omega, hc⟩
      change 1 ≤ j at hj1
      change j < r' + 1 at hj2
      change sl m.keys (i + j) = k at hj3
      clear_value j
      obtain ⟨j', rfl⟩ : ∃ j', j = j' + 1 := ⟨j - 1, by omega⟩
      obtain ⟨g, rfl⟩ : ∃ g, inner = j' + 1 + g := ⟨inner - (j' + 1), by omega⟩
      rw [nextMatch_spec hp hk _ j' i g (fun e h1 h2 => ⟨hjmin e h1 (by omega), hb e (by omega)⟩)
        (Or.inr hj3)]
      simp only [Res.bind]
      obtain ⟨s, hs'⟩ : ∃ s, r' + 1 = j' + 1 + s := ⟨r' - j', by omega⟩
      have := ih s (by omega) (i + (j' + 1)) f (by omega) hj3 (fun e he => by
        have := hb (j' + 1 + e) (by omega)
        rw [show i + (j' + 1) + e = i + (j' + 1 + e) by omega,
          show i + (j' + 1) + s = i + (r' + 1) by omega]
        exact this) (by omega) (by omega)
      rw [show i + (j' + 1) + s = i + (r' + 1) by omega] at this
      rw [this]
      simp only
      congr 1
      rw [mv, if_pos hi]
      congr 1
      rw [show r' = j' + s by omega, mv_skip k m j' (i + 1) s (fun e he => by
        have := hjmin (e + 1) (by omega) (by omega)
        rwa [show i + 1 + e = i + (e + 1) by omega])]
      rw [show i + 1 + j' = i + (j' + 1) by omega]
    · have hno : ∀ e, 1 ≤ e → e ≤ r' → sl m.keys (i + e) ≠ k :=
        fun e h1 h2 hc => hex ⟨e, h1, by omega, hc⟩
      obtain ⟨g, rfl⟩ : ∃ g, inner = r' + 1 + g := ⟨inner - (r' + 1), by omega⟩
      rw [nextMatch_spec hp hk _ r' i g (fun e h1 h2 => ⟨hno e h1 h2, hb e (by omega)⟩)
        (Or.inl rfl)]
      simp only [Res.bind]
      obtain ⟨f', rfl⟩ : ∃ f', f = f' + 1 := ⟨f - 1, by omega⟩
      unfold collect
      simp only [if_true]
      congr 1
      rw [mv, if_pos hi]
      congr 1
      rw [show r' = r' + 0 by omega, mv_skip k m r' (i + 1) 0 (fun e he => by
        have := hno (e + 1) (by omega) (by omega)
        rwa [show i + 1 + e = i + (e + 1) by omega])]
      rfl

/-! all slots -/

theorem rot_perm {n : Nat} (hn : 0 < n) (h : Nat) :
    ((List.range n).map (fun d => (h + d) % n)).Perm (List.range n) := by
  apply List.Subperm.perm_of_length_le
  · apply List.subperm_of_subset
    · apply List.Nodup.map_on _ List.nodup_range
      intro x hx y hy hxy
      have hx := List.mem_range.1 hx
      have hy := List.mem_range.1 hy
      have : x ≡ y [MOD n] := Nat.ModEq.add_left_cancel' h hxy
      rwa [Nat.ModEq, Nat.mod_eq_of_lt hx, Nat.mod_eq_of_lt hy] at this
    · intro x hx
      obtain ⟨d, _, rfl⟩ := List.mem_map.1 hx
      exact List.mem_range.2 (Nat.mod_lt _ hn)
  · simp

theorem mv_eq (k : Nat) (m : LpMultiMap) : ∀ (r i : Nat), mv k m i r =
    ((List.range r).map (fun d => (i + d))).filterMap
      (fun j => if sl m.keys j = k then some (m.vl j) else none)
  | 0, i => by simp [mv]
  | r + 1, i => by
    have e : (List.range (r + 1)).map (fun d => i + d) =
        i :: (List.range r).map (fun d => (i + 1) + d) := by
      rw [List.range_succ_eq_map, List.map_cons, List.map_map]
      congr 1
      apply List.map_congr_left
      intro d _
      simp only [Function.comp, Nat.succ_eq_add_one]
      omega
    rw [e, mv, List.filterMap_cons, mv_eq k m r (i + 1)]
    split <;> simp_all

theorem mv_all {m : LpMultiMap} {P : List (Nat × Nat)} (hw : m.WF) (ha : m.Abs P) {k : Nat}
    (hk : k ≠ 0) (h : Nat) :
    (mv k m h m.keys.length).Perm ((P.filter (fun q => q.1 = k)).map Prod.snd) := by
  have hn := hw.pos
  let g : Nat × Option Nat → Option Nat := fun p => if p.1 = k then some (p.2.getD 0) else none
  have e1 : mv k m h m.keys.length =
      ((List.range m.keys.length).map (fun d => (h + d) % m.keys.length)).filterMap
        (fun j => if sl m.keys j = k then some (m.vl j) else none) := by
    rw [mv_eq, List.filterMap_map, List.filterMap_map]
    apply List.filterMap_congr
    intro d _
    simp only [Function.comp, sl_mod, vl, Nat.mod_mod]
  have e2 : (List.range m.keys.length).filterMap
        (fun j => if sl m.keys j = k then some (m.vl j) else none) =
      (m.keys.zip m.vals).filterMap g := by
    have : m.keys.zip m.vals = (List.range m.keys.length).map
        (fun j => (sl m.keys j, m.vals.getD j none)) := by
      apply List.ext_getElem?
      intro j
      by_cases hj : j < m.keys.length
      · have hv : j < m.vals.length := by rw [hw.vlen]; exact hj
        rw [List.getElem?_map, List.getElem?_range hj, Option.map_some, List.getElem?_zip_eq_some]
        refine ⟨?_, ?_⟩
        · rw [List.getElem?_eq_getElem hj, sl_getElem _ _ hj]
        · simp only
          rw [List.getElem?_eq_getElem hv, List.getD_eq_getElem _ _ hv]
      · rw [List.getElem?_eq_none (by simp; omega), List.getElem?_eq_none (by simp; omega)]
    rw [this, List.filterMap_map]
    apply List.filterMap_congr
    intro j hj
    have hj := List.mem_range.1 hj
    simp only [Function.comp, g, vl, Nat.mod_eq_of_lt hj]
  have e3 : (m.keys.zip m.vals).filterMap g = m.pairs.filterMap g := by
    unfold pairs
    rw [List.filterMap_filter]
    congr 1
    funext p
    by_cases hp : p.1 = 0
    · simp [hp, g, hk.symm]
    · simp [hp]
  have e4 : (P.map (fun q => (q.1, some q.2))).filterMap g =
      (P.filter (fun q => q.1 = k)).map Prod.snd := by
    rw [List.filterMap_map, ← List.filterMap_eq_map, ← List.filterMap_eq_filter,
      List.filterMap_filterMap]
    apply List.filterMap_congr
    intro q _
    by_cases hq : q.1 = k <;> simp [g, hq, Option.guard]
  rw [e1]
  refine ((rot_perm hn h).filterMap _).trans ?_
  rw [e2, e3, ← e4]
  exact ha.filterMap g

theorem occ_ge {keys : List Nat} {h z : Nat} (hz : z ≤ keys.length)
    (hb : ∀ e, e < z → sl keys (h + e) ≠ 0) : z ≤ occ keys := by
  rcases Nat.eq_zero_or_pos keys.length with h0 | hn
  · omega
  have e1 : keys = (List.range keys.length).map (fun j => sl keys j) := by
    apply List.ext_getElem
    · simp
    · intro i h1 h2
      simp [sl_getElem _ _ h1]
  have e2 : occ keys = ((List.range keys.length).map (fun d => (h + d) % keys.length)).countP
      (fun j => sl keys j != 0) := by
    rw [(rot_perm hn h).countP_eq]
    conv_lhs => rw [e1]
    unfold occ
    rw [List.countP_map]
    rfl
  rw [e2, List.countP_map]
  obtain ⟨r, hr⟩ : ∃ r, keys.length = z + r := ⟨keys.length - z, by omega⟩
  rw [show List.range keys.length = List.range z ++ (List.range r).map (z + ·) by
    rw [hr, List.range_add], List.countP_append]
  have : (List.range z).countP ((fun j => sl keys j != 0) ∘ fun d => (h + d) % keys.length) = z := by
    conv_rhs => rw [← List.length_range (n := z)]
    rw [List.countP_eq_length]
    intro e he
    have := hb e (List.mem_range.1 he)
    simp [sl_mod, this]
  omega

theorem getAll_spec {m : LpMultiMap} {P : List (Nat × Nat)} (hw : m.WF) (ha : m.Abs P) {k : Nat}
    (hk : k ≠ 0) (h2 : m.items + 2 ≤ m.keys.length) :
    ∃ vs, Returns (fun n => m.getAll n k) vs ∧
      vs.Perm ((P.filter (fun q => q.1 = k)).map Prod.snd) := by
  obtain ⟨p, hp⟩ := hw.pow
  have hn := hw.pos
  obtain ⟨z, hz, hb⟩ := exists_stop hn (hash64 m.a k) 0 (Or.inl (hw.free (by omega)))
  generalize hh : hash64 m.a k = h at *
  have h0 : sl m.keys (h + z) = 0 := by rcases hz with hz | hz <;> exact hz
  have hb' : ∀ e, e < z → sl m.keys (h + e) ≠ 0 := fun e he => (hb e he).1
  have hzl : z ≤ m.keys.length := by
    by_contra hc
    obtain ⟨i, hi, hi0⟩ := (mem_iff_sl 0).1 (hw.free (by omega))
    have hmem : i ∈ (List.range m.keys.length).map (fun d => (h + d) % m.keys.length) :=
      (rot_perm hn h).mem_iff.2 (List.mem_range.2 hi)
    obtain ⟨d, hd, hdi⟩ := List.mem_map.1 hmem
    have hd := List.mem_range.1 hd
    apply hb' d (by omega)
    rw [← sl_mod, hdi, hi0]
  have hzo := occ_ge hzl hb'
  rw [← hw.cnt] at hzo
  -- all matches lie before `z`
  have hmatch : ∀ d, d < m.keys.length → sl m.keys (h + d) = k → d < z := by
    intro d hd hdk
    have hi : (h + d) % m.keys.length < m.keys.length := Nat.mod_lt _ hn
    obtain ⟨d', hd1, hd2⟩ := hw.path _ hi (by rw [sl_mod, hdk]; exact hk)
    rw [sl_mod, hdk, hh] at hd1 hd2
    have hle : d' ≤ z := by
      by_contra hc
      exact hd2 z (by omega) h0
    have : d' ≡ d [MOD m.keys.length] := Nat.ModEq.add_left_cancel' h hd1
    rw [Nat.ModEq, Nat.mod_eq_of_lt hd, Nat.mod_eq_of_lt (by omega)] at this
    subst this
    rcases Nat.lt_or_ge d' z with h | h
    · exact h
    · exfalso
      have : d' = z := by omega
      rw [this, h0] at hdk
      exact hk hdk.symm
  have hall := mv_all hw ha hk h
  by_cases hex : ∃ f, f < z ∧ sl m.keys (h + f) = k
  · let f := Nat.find hex
    obtain ⟨hf1, hf2⟩ := Nat.find_spec hex
    have hfmin : ∀ e, e < f → sl m.keys (h + e) ≠ k := by
      intro e he hc
      exact Nat.find_min hex he ⟨by have : f < z := hf1; omega, hc⟩
    change f < z at hf1
    change sl m.keys (h + f) = k at hf2
    clear_value f
    refine ⟨mv k m h m.keys.length, ?_, hall⟩
    refine ⟨z + 2, fun n hn' => ?_⟩
    obtain ⟨g, rfl⟩ : ∃ g, n = z + 1 + g := ⟨n - (z + 1), by omega⟩
    simp only [getAll, get, hh]
    rw [mask_eq hp, getLoop_mod hp, getLoop_some hp hk z h f g hf1 (by omega) hfmin hf2 hb' h0]
    simp only [Res.bind]
    have hc := collect_spec hw (abs_slotsOk ha) hk (z + 1 + g) (z + 1 - f) (h + f) (z + 1 + g)
      (by omega) hf2 (fun e he => by
        rw [show h + f + (z + 1 - f) = (h + f + e) + (z + 1 - f - e) by omega]
        exact (mod_ne (f := 0) (by omega) (by omega)).symm) (by omega) (by omega)
    rw [show h + f + (z + 1 - f) = h + z + 1 by omega] at hc
    rw [hc]
    congr 1
    rw [← mv_skip k m f h (z + 1 - f) hfmin, show f + (z + 1 - f) = z + 1 by omega]
    -- nothing behind `z`
    have : ∀ (r i : Nat), (∀ e, e < r → sl m.keys (i + (z + 1) + e) ≠ k) →
        mv k m i (z + 1) = mv k m i (z + 1 + r) := by
      intro r i
      generalize z + 1 = y
      induction y generalizing i with
      | zero =>
        intro hne
        rw [show 0 + r = r + 0 by omega, mv_skip k m r i 0 (fun e he => by simpa using hne e he)]
        rfl
      | succ y ihy =>
        intro hne
        rw [show y + 1 + r = (y + r) + 1 by omega, mv, mv, ihy (i + 1) (fun e he => by
          have := hne e he
          rwa [show i + 1 + y + e = i + (y + 1) + e by omega])]
    rw [this (m.keys.length - (z + 1)) h (fun e he hc => by
      have := hmatch (z + 1 + e) (by omega) (by rwa [show h + (z + 1 + e) = h + (z + 1) + e by omega])
      omega)]
    congr 1
    omega
  · have hno : ∀ e, e < z → sl m.keys (h + e) ≠ k := fun e he hc => hex ⟨e, he, hc⟩
    have hnil : mv k m h m.keys.length = [] := by
      rw [show m.keys.length = m.keys.length + 0 by omega, mv_skip k m m.keys.length h 0
        (fun e he hc => hno e (hmatch e he hc) hc)]
      rfl
    refine ⟨[], ?_, by rw [← hnil]; exact hall⟩
    refine ⟨z + 2, fun n hn' => ?_⟩
    obtain ⟨g, rfl⟩ : ∃ g, n = z + 1 + g := ⟨n - (z + 1), by omega⟩
    simp only [getAll, get, hh]
    rw [mask_eq hp, getLoop_mod hp, getLoop_none hp z h g (fun e he => ⟨hb' e he, hno e he⟩) h0]
    simp only [Res.bind]
    rw [show z + 1 + g = (z + g) + 1 by omega]
    simp [collect]

theorem mem_pairs_iff {m : LpMultiMap} {P : List (Nat × Nat)} (hw : m.WF) (ha : m.Abs P) {k : Nat}
    (hk : k ≠ 0) : k ∈ m.keys ↔ ∃ v, (k, v) ∈ P := by
  constructor
  · intro h
    obtain ⟨i, hi, hki⟩ := List.mem_iff_getElem.1 h
    have hv : i < m.vals.length := by rw [hw.vlen]; exact hi
    have : (k, m.vals[i]) ∈ m.pairs := by
      refine List.mem_filter.2 ⟨?_, by simp [hk]⟩
      rw [List.mem_iff_getElem?]
      refine ⟨i, ?_⟩
      rw [List.getElem?_zip_eq_some]
      exact ⟨by rw [List.getElem?_eq_getElem hi, hki], List.getElem?_eq_getElem hv⟩
    obtain ⟨q, hq, he⟩ := List.mem_map.1 (ha.mem_iff.1 this)
    refine ⟨q.2, ?_⟩
    have : q.1 = k := by simpa using congrArg Prod.fst he
    rw [← this]
    exact hq
  · rintro ⟨v, hv⟩
    have : (k, some v) ∈ m.pairs := ha.mem_iff.2 (List.mem_map.2 ⟨(k, v), hv, rfl⟩)
    exact (List.of_mem_zip (List.mem_filter.1 this).1).1

theorem contains_spec {m : LpMultiMap} {P : List (Nat × Nat)} (hw : m.WF) (ha : m.Abs P) {k : Nat}
    (hk : k ≠ 0) (h : m.items < m.keys.length ∨ ∃ v, (k, v) ∈ P) :
    Returns (fun n => m.contains n k) (decide (k ∈ P.map Prod.fst)) := by
  have hiff : k ∈ P.map Prod.fst ↔ ∃ v, (k, v) ∈ P := by simp
  obtain ⟨p, hp⟩ := hw.pow
  have hstop : 0 ∈ m.keys ∨ k ∈ m.keys := by
    rcases h with h | h
    · exact Or.inl (hw.free h)
    · exact Or.inr ((mem_pairs_iff hw ha hk).2 h)
  obtain ⟨d, hs, hb⟩ := exists_stop hw.pos (hash64 m.a k) k hstop
  refine ⟨d + 1, fun n hn' => ?_⟩
  obtain ⟨g, rfl⟩ : ∃ g, n = d + (g + 1) := ⟨n - (d + 1), by omega⟩
  simp only [contains]
  rw [LpSet.containsLoop_skip hp k d _ _ hb]
  simp only [LpSet.containsLoop]
  rw [getElem?_mask hp]
  by_cases hkm : sl m.keys (hash64 m.a k + d) = k
  · have hmem : k ∈ m.keys := by rw [← hkm]; exact sl_mem hw.pos _
    simp only [hkm, if_true, decide_eq_true (hiff.2 ((mem_pairs_iff hw ha hk).1 hmem))]
  · have h0 : sl m.keys (hash64 m.a k + d) = 0 := hs.resolve_right hkm
    have hnm : k ∉ P.map Prod.fst := by
      intro hc
      obtain ⟨i, hi, hik⟩ := (mem_iff_sl k).1 ((mem_pairs_iff hw ha hk).2 (hiff.1 hc))
      obtain ⟨d', hd1, hd2⟩ := hw.path i hi (by rw [hik]; exact hk)
      rw [hik] at hd1 hd2
      rcases Nat.lt_trichotomy d d' with h1 | h1 | h1
      · exact hd2 d h1 h0
      · subst h1
        apply hkm
        rw [← sl_mod, hd1, hik]
      · apply (hb d' h1).2
        rw [← sl_mod, hd1, hik]
    rw [h0]
    simp [hnm, Ne.symm hk]

end LpMultiMap
end Verif
