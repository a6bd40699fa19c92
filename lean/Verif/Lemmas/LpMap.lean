import Verif.Model.LpMap
import Verif.Lemmas.LpSet

/-!
# Invariants of the sequential hash map
-/
namespace Verif
namespace LpMap

theorem probeLoop_mod {arr : List Nat} {p : Nat} (hl : arr.length = 2 ^ p) (k fuel i : Nat) :
    probeLoop k arr fuel (i % arr.length) = probeLoop k arr fuel i := by
  cases fuel with
  | zero => rfl
  | succ f =>
    simp only [probeLoop]
    rw [getElem?_mask hl, getElem?_mask hl, sl_mod]
    have : maskIdx arr.length (i % arr.length) = maskIdx arr.length i := by
      rw [hl, maskIdx_pow, maskIdx_pow, Nat.mod_mod]
    rw [this]

theorem probeLoop_skip {arr : List Nat} {p : Nat} (hl : arr.length = 2 ^ p) (k : Nat) :
    ∀ (d fuel i : Nat), (∀ e, e < d → sl arr (i + e) ≠ 0 ∧ sl arr (i + e) ≠ k) →
      probeLoop k arr (d + fuel) i = probeLoop k arr fuel (i + d)
  | 0, fuel, i, _ => by simp
  | d + 1, fuel, i, h => by
    have e1 : d + 1 + fuel = (d + fuel) + 1 := by omega
    rw [e1]
    conv_lhs => unfold probeLoop
    simp only
    rw [getElem?_mask hl]
    have h0 := h 0 (by omega)
    simp only [Nat.add_zero] at h0
    simp only [h0.1, h0.2, if_false, ne_eq, not_false_eq_true, if_true]
    have : maskIdx arr.length i + 1 = i % arr.length + 1 := by rw [hl, maskIdx_pow]
    rw [this, ← probeLoop_mod hl, Nat.mod_add_mod, probeLoop_mod hl]
    rw [probeLoop_skip hl k d fuel (i + 1)]
    · congr 1; omega
    · intro e he
      have := h (e + 1) (by omega)
      have e2 : i + 1 + e = i + (e + 1) := by omega
      rw [e2]; exact this

theorem probeLoop_stop {arr : List Nat} {p : Nat} (hl : arr.length = 2 ^ p) (k : Nat) (d i : Nat)
    (h : ∀ e, e < d → sl arr (i + e) ≠ 0 ∧ sl arr (i + e) ≠ k)
    (hs : sl arr (i + d) = 0 ∨ sl arr (i + d) = k) :
    Returns (fun f => probeLoop k arr f i) ((i + d) % arr.length, sl arr (i + d)) := by
  refine ⟨d + 1, fun m hm => ?_⟩
  obtain ⟨f, rfl⟩ : ∃ f, m = d + (f + 1) := ⟨m - d - 1, by omega⟩
  simp only
  rw [probeLoop_skip hl k d (f + 1) i h]
  simp only [probeLoop]
  rw [getElem?_mask hl]
  have e : maskIdx arr.length (i + d) = (i + d) % arr.length := by rw [hl, maskIdx_pow]
  simp only [e]
  by_cases h1 : sl arr (i + d) = k
  · simp [h1]
  · have h2 := hs.resolve_right h1
    rw [if_neg h1]
    simp [h2]

theorem probeLoop_diverges {arr : List Nat} {p : Nat} (hl : arr.length = 2 ^ p) (k i : Nat)
    (h : ∀ e, sl arr (i + e) ≠ 0 ∧ sl arr (i + e) ≠ k) :
    Diverges (fun f => probeLoop k arr f i) := by
  intro f
  have := probeLoop_skip hl k f 0 i (fun e _ => h e)
  simpa [probeLoop] using this

/-- Well-formed map. -/
structure WF (m : LpMap) : Prop where
  pow : ∃ p, m.keys.length = 2 ^ p
  vlen : m.vals.length = m.keys.length
  path : PathOk (hash64 m.a) m.keys
  cnt : m.items = occ m.keys
  init : ∀ i (h : i < m.keys.length), m.keys[i] ≠ 0 → ∃ v, m.vals[i]? = some (some v)

/-- `(k, v)` is stored. -/
def Has (m : LpMap) (k v : Nat) : Prop := ∃ i : Nat, m.keys[i]? = some k ∧ m.vals[i]? = some (some v)

/-- The map represents the finite function `f`. -/
def Abs (m : LpMap) (f : Nat → Option Nat) : Prop := ∀ k v, k ≠ 0 → (f k = some v ↔ Has m k v)

theorem WF.pos {m : LpMap} (h : m.WF) : 0 < m.keys.length := by
  obtain ⟨p, hp⟩ := h.pow
  rw [hp]; exact Nat.pow_pos (by omega)

theorem mem_keys_iff {m : LpMap} {f : Nat → Option Nat} (h : m.WF) (ha : m.Abs f) {k : Nat}
    (hk : k ≠ 0) : k ∈ m.keys ↔ f k ≠ none := by
  constructor
  · intro hm
    obtain ⟨i, hi, e⟩ := List.mem_iff_getElem.1 hm
    obtain ⟨v, hv⟩ := h.init i hi (by rw [e]; exact hk)
    have : f k = some v := (ha k v hk).2 ⟨i, by rw [List.getElem?_eq_getElem hi, e], hv⟩
    rw [this]; simp
  · intro hf
    obtain ⟨v, hv⟩ := Option.ne_none_iff_exists'.1 hf
    obtain ⟨i, hi, _⟩ := (ha k v hk).1 hv
    exact List.mem_of_getElem? hi

theorem items_eq {m m' : LpMap} {f : Nat → Option Nat} (h : m.WF) (ha : m.Abs f) (h' : m'.WF)
    (ha' : m'.Abs f) : m.items = m'.items := by
  rw [h.cnt, h'.cnt, h.path.occ_eq_card, h'.path.occ_eq_card]
  congr 1
  ext x
  simp only [Finset.mem_erase, List.mem_toFinset]
  constructor
  · rintro ⟨h0, hm⟩
    exact ⟨h0, (mem_keys_iff h' ha' h0).2 ((mem_keys_iff h ha h0).1 hm)⟩
  · rintro ⟨h0, hm⟩
    exact ⟨h0, (mem_keys_iff h ha h0).2 ((mem_keys_iff h' ha' h0).1 hm)⟩

theorem items_card {m : LpMap} {f : Nat → Option Nat} (h : m.WF) (ha : m.Abs f) (D : Finset Nat)
    (hD : ∀ k, k ∈ D ↔ k ≠ 0 ∧ f k ≠ none) : m.items = D.card := by
  rw [h.cnt, h.path.occ_eq_card]
  congr 1
  ext x
  simp only [Finset.mem_erase, List.mem_toFinset]
  rw [hD]
  constructor
  · rintro ⟨h0, hm⟩; exact ⟨h0, (mem_keys_iff h ha h0).1 hm⟩
  · rintro ⟨h0, hm⟩; exact ⟨h0, (mem_keys_iff h ha h0).2 hm⟩

theorem WF.free {m : LpMap} (h : m.WF) (hlt : m.items < m.keys.length) : 0 ∈ m.keys :=
  zero_mem_of_occ_lt (by rw [← h.cnt]; exact hlt)

theorem WF.items_le {m : LpMap} (h : m.WF) : m.items ≤ m.keys.length := by
  rw [h.cnt]; exact occ_le _

/-- Where the probe of `k` ends. -/
theorem probe_spec {m : LpMap} (h : m.WF) {k : Nat} (hk : k ≠ 0) (hex : 0 ∈ m.keys ∨ k ∈ m.keys) :
    ∃ i, i < m.keys.length ∧ ∃ x, m.keys[i]? = some x ∧
      Returns (fun f => probeLoop k m.keys f (hash64 m.a k)) (i, x) ∧
      ((x = k) ∨ (x = 0 ∧ k ∉ m.keys ∧ PathOk (hash64 m.a) (m.keys.set i k))) := by
  obtain ⟨p, hp⟩ := h.pow
  obtain ⟨d, hs, hb⟩ := exists_stop h.pos (hash64 m.a k) k hex
  have hi : (hash64 m.a k + d) % m.keys.length < m.keys.length := Nat.mod_lt _ h.pos
  refine ⟨(hash64 m.a k + d) % m.keys.length, hi, sl m.keys (hash64 m.a k + d), ?_,
    probeLoop_stop hp k d _ hb hs, ?_⟩
  · rw [← sl_mod, sl_getElem _ _ hi, List.getElem?_eq_getElem hi]
  · by_cases h1 : sl m.keys (hash64 m.a k + d) = k
    · exact Or.inl h1
    · have h0 := hs.resolve_right h1
      exact Or.inr ⟨h0, h.path.not_mem hk h0 hb, h.path.set h.pos h0 hb⟩

theorem has_unique {m : LpMap} (h : m.WF) {k i : Nat} (hk : k ≠ 0) (hi : m.keys[i]? = some k) (v : Nat) :
    m.Has k v ↔ m.vals[i]? = some (some v) := by
  constructor
  · rintro ⟨j, hj, hv⟩
    obtain ⟨hi1, hi2⟩ := List.getElem?_eq_some_iff.1 hi
    obtain ⟨hj1, hj2⟩ := List.getElem?_eq_some_iff.1 hj
    have : i = j := h.path.inj hi1 hj1 (by rw [sl_getElem _ _ hi1, hi2]; exact hk)
      (by rw [sl_getElem _ _ hi1, sl_getElem _ _ hj1, hi2, hj2])
    rw [this]; exact hv
  · intro hv; exact ⟨i, hi, hv⟩

theorem insertRaw_spec {m : LpMap} {f : Nat → Option Nat} (h : m.WF) (ha : m.Abs f) {k : Nat}
    (v : Nat) (hk : k ≠ 0) (hex : 0 ∈ m.keys ∨ k ∈ m.keys) :
    ∃ m', Returns (fun n => m.insertRaw n k v) (m', decide (f k = none)) ∧ m'.WF ∧
      m'.Abs (Function.update f k (some v)) ∧ m'.keys.length = m.keys.length ∧ m'.a = m.a ∧
      m'.items ≤ m.items + 1 := by
  obtain ⟨i, hi, x, hx, hr, hcase⟩ := probe_spec h hk hex
  have hvi : i < m.vals.length := by rw [h.vlen]; exact hi
  rcases hcase with rfl | ⟨rfl, hnm, hpath⟩
  · -- update
    refine ⟨{ m with vals := m.vals.set i (some v) }, ?_, ?_, ?_, rfl, rfl, by simp⟩
    · have hf : decide (f x = none) = false := by
        simp only [decide_eq_false_iff_not]
        exact (mem_keys_iff h ha hk).1 (List.mem_of_getElem? hx)
      rw [hf]
      have := hr.map (fun r : Nat × Nat =>
        if r.2 = x then (({ m with vals := m.vals.set r.1 (some v) } : LpMap), false)
        else ({ m with keys := m.keys.set r.1 x, vals := m.vals.set r.1 (some v),
                       items := m.items + 1 }, true))
      simp only [if_true] at this
      convert this using 2 with n
      unfold insertRaw
      congr 1
      funext r
      split <;> rfl
    · refine ⟨h.pow, by simp [h.vlen], h.path, h.cnt, ?_⟩
      intro j hj hne
      simp only at hj hne ⊢
      rw [List.getElem?_set]
      split
      · rename_i e
        exact ⟨v, rfl⟩
      · exact h.init j hj hne
    · intro k' v' hk'
      by_cases hkk : k' = x
      · subst hkk
        rw [Function.update_self]
        constructor
        · intro e
          injection e with e
          subst e
          exact ⟨i, hx, by rw [List.getElem?_set_self hvi]⟩
        · rintro ⟨j, hj, hv⟩
          simp only at hj hv
          have hij : i = j := by
            obtain ⟨hi1, hi2⟩ := List.getElem?_eq_some_iff.1 hx
            obtain ⟨hj1, hj2⟩ := List.getElem?_eq_some_iff.1 hj
            exact h.path.inj hi1 hj1 (by rw [sl_getElem _ _ hi1, hi2]; exact hk)
              (by rw [sl_getElem _ _ hi1, sl_getElem _ _ hj1, hi2, hj2])
          subst hij
          rw [List.getElem?_set_self hvi] at hv
          injection hv
      · rw [Function.update_of_ne hkk, ha k' v' hk']
        constructor
        · rintro ⟨j, hj, hv⟩
          refine ⟨j, hj, ?_⟩
          have : i ≠ j := by rintro rfl; rw [hx] at hj; injection hj with e; exact hkk e.symm
          simp only
          rw [List.getElem?_set_ne this]
          exact hv
        · rintro ⟨j, hj, hv⟩
          simp only at hj hv
          have : i ≠ j := by rintro rfl; rw [hx] at hj; injection hj with e; exact hkk e.symm
          rw [List.getElem?_set_ne this] at hv
          exact ⟨j, hj, hv⟩
  · -- new key
    refine ⟨{ m with keys := m.keys.set i k, vals := m.vals.set i (some v), items := m.items + 1 },
      ?_, ?_, ?_, by simp, rfl, le_rfl⟩
    · have hf : decide (f k = none) = true := by
        simp only [decide_eq_true_eq]
        by_contra hc
        exact hnm ((mem_keys_iff h ha hk).2 hc)
      rw [hf]
      have := hr.map (fun r : Nat × Nat =>
        if r.2 = k then (({ m with vals := m.vals.set r.1 (some v) } : LpMap), false)
        else ({ m with keys := m.keys.set r.1 k, vals := m.vals.set r.1 (some v),
                       items := m.items + 1 }, true))
      simp only [if_neg (Ne.symm hk)] at this
      convert this using 2 with n
      unfold insertRaw
      congr 1
      funext r
      split <;> rfl
    · refine ⟨by simpa using h.pow, by simp [h.vlen], hpath, ?_, ?_⟩
      · rw [occ_set hi hx hk, h.cnt]
      · intro j hj hne
        simp only at hj hne ⊢
        rw [List.getElem?_set]
        split
        · rename_i e
          exact ⟨v, rfl⟩
        · rename_i e
          rw [List.length_set] at hj
          rw [List.getElem_set_ne e] at hne
          exact h.init j hj hne
    · intro k' v' hk'
      by_cases hkk : k' = k
      · subst hkk
        rw [Function.update_self]
        constructor
        · intro e
          injection e with e
          subst e
          exact ⟨i, by rw [List.getElem?_set_self hi], by rw [List.getElem?_set_self hvi]⟩
        · rintro ⟨j, hj, hv⟩
          simp only at hj hv
          by_cases hij : i = j
          · subst hij
            rw [List.getElem?_set_self hvi] at hv
            injection hv
          · rw [List.getElem?_set_ne hij] at hj
            exact absurd (List.mem_of_getElem? hj) hnm
      · rw [Function.update_of_ne hkk, ha k' v' hk']
        constructor
        · rintro ⟨j, hj, hv⟩
          have : i ≠ j := by rintro rfl; rw [hx] at hj; injection hj with e; exact hk' e.symm
          refine ⟨j, ?_, ?_⟩
          · simp only; rw [List.getElem?_set_ne this]; exact hj
          · simp only; rw [List.getElem?_set_ne this]; exact hv
        · rintro ⟨j, hj, hv⟩
          simp only at hj hv
          have : i ≠ j := by
            rintro rfl; rw [List.getElem?_set_self hi] at hj; injection hj with e; exact hkk e.symm
          rw [List.getElem?_set_ne this] at hv hj
          exact ⟨j, hj, hv⟩

/-- Effect of inserting a list of slots. -/
def foldUpd (P : Nat → Bool) (f : Nat → Option Nat) : List (Nat × Option Nat) → Nat → Option Nat
  | [] => f
  | (k, some v) :: xs =>
    if k ≠ 0 ∧ P k = true then foldUpd P (Function.update f k (some v)) xs else foldUpd P f xs
  | (_, none) :: xs => foldUpd P f xs

def SlotsOk (l : List (Nat × Option Nat)) : Prop := ∀ p ∈ l, p.1 ≠ 0 → p.2 ≠ none

theorem foldUpd_not_mem (P : Nat → Bool) : ∀ (l : List (Nat × Option Nat)) (f : Nat → Option Nat) (k : Nat),
    k ≠ 0 → (P k = true → ∀ v, (k, some v) ∉ l) → foldUpd P f l k = f k
  | [], f, k, _, _ => rfl
  | (a, none) :: xs, f, k, hk, h => by
    rw [foldUpd]; exact foldUpd_not_mem P xs f k hk (fun hp v hm => h hp v (by simp [hm]))
  | (a, some w) :: xs, f, k, hk, h => by
    rw [foldUpd]
    split
    · rename_i ha
      rw [foldUpd_not_mem P xs _ k hk (fun hp v hm => h hp v (by simp [hm]))]
      by_cases hak : k = a
      · subst hak; exact absurd (by simp) (h ha.2 w)
      · rw [Function.update_of_ne hak]
    · exact foldUpd_not_mem P xs _ k hk (fun hp v hm => h hp v (by simp [hm]))

theorem foldUpd_mem (P : Nat → Bool) : ∀ (l : List (Nat × Option Nat)) (f : Nat → Option Nat) (k v : Nat),
    k ≠ 0 → P k = true → l.Pairwise (fun p q => p.1 ≠ 0 → p.1 ≠ q.1) → (k, some v) ∈ l →
    foldUpd P f l k = some v
  | [], f, k, v, _, _, _, h => by simp at h
  | (a, none) :: xs, f, k, v, hk, hp, hd, h => by
    rw [foldUpd]
    exact foldUpd_mem P xs f k v hk hp hd.of_cons (by simpa using h)
  | (a, some w) :: xs, f, k, v, hk, hp, hd, h => by
    rw [foldUpd]
    rcases List.mem_cons.1 h with e | e
    · injection e with e1 e2
      injection e2 with e2
      subst e1 e2
      rw [if_pos ⟨hk, hp⟩, foldUpd_not_mem P xs _ k hk, Function.update_self]
      intro _ v' hm
      exact (List.pairwise_cons.1 hd).1 _ hm hk rfl
    · split
      · exact foldUpd_mem P xs _ k v hk hp hd.of_cons e
      · exact foldUpd_mem P xs _ k v hk hp hd.of_cons e

theorem WF.slotsOk {m : LpMap} (h : m.WF) : SlotsOk (m.keys.zip m.vals) := by
  intro p hp h0
  obtain ⟨i, hi, e⟩ := List.mem_iff_getElem.1 hp
  have hi' : i < m.keys.length := by simp at hi; omega
  subst e
  simp only [List.getElem_zip] at h0 ⊢
  obtain ⟨v, hv⟩ := h.init i hi' h0
  have hvi : i < m.vals.length := by rw [h.vlen]; exact hi'
  rw [List.getElem?_eq_getElem hvi] at hv
  injection hv with hv
  rw [hv]; simp

theorem WF.slots_distinct {m : LpMap} (h : m.WF) :
    (m.keys.zip m.vals).Pairwise (fun p q => p.1 ≠ 0 → p.1 ≠ q.1) := by
  rw [List.pairwise_iff_getElem]
  intro i j hi hj hij h0 he
  have hi' : i < m.keys.length := by simp at hi; omega
  have hj' : j < m.keys.length := by simp at hj; omega
  simp only [List.getElem_zip] at h0 he
  have := h.path.inj hi' hj' (by rw [sl_getElem _ _ hi']; exact h0)
    (by rw [sl_getElem _ _ hi', sl_getElem _ _ hj']; exact he)
  omega

theorem has_iff_mem {m : LpMap} (h : m.WF) (k v : Nat) :
    m.Has k v ↔ (k, some v) ∈ m.keys.zip m.vals := by
  constructor
  · rintro ⟨i, h1, h2⟩
    apply List.mem_of_getElem? (i := i)
    rw [List.getElem?_zip_eq_some]
    exact ⟨h1, h2⟩
  · intro hm
    obtain ⟨i, hi⟩ := List.mem_iff_getElem?.1 hm
    rw [List.getElem?_zip_eq_some] at hi
    exact ⟨i, hi.1, hi.2⟩

theorem wf_empty (m : LpMap) {n : Nat} (hn : 0 < n) :
    WF { m with keys := List.replicate (nextPow2 n) 0, vals := List.replicate (nextPow2 n) none,
                items := 0 } where
  pow := by obtain ⟨k, hk⟩ := nextPow2_isPow hn; exact ⟨k, by simp [hk]⟩
  vlen := by simp
  path := pathOk_replicate _ _
  cnt := by rw [occ_replicate]
  init := by intro i hi h; simp at h

theorem abs_empty (m : LpMap) (n : Nat) :
    Abs { m with keys := List.replicate n 0, vals := List.replicate n none, items := 0 }
      (fun _ => none) := by
  intro k v hk
  constructor
  · intro h; cases h
  · rintro ⟨i, hi, _⟩
    have := List.eq_of_mem_replicate (List.mem_of_getElem? hi)
    exact absurd this hk

theorem reinsertAll_spec : ∀ (l : List (Nat × Option Nat)) {m : LpMap} {f : Nat → Option Nat},
    m.WF → m.Abs f → SlotsOk l → m.items + l.length ≤ m.keys.length →
    ∃ m', Returns (fun n => reinsertAll n l m) m' ∧ m'.WF ∧
      m'.Abs (foldUpd (fun _ => true) f l) ∧ m'.keys.length = m.keys.length ∧ m'.a = m.a
  | [], m, f, h, ha, _, _ => ⟨m, Returns.pure _, h, ha, rfl, rfl⟩
  | (k, o) :: xs, m, f, h, ha, hok, hle => by
    simp only [List.length_cons] at hle
    by_cases hk : k = 0
    · subst hk
      obtain ⟨m', hr, h'⟩ := reinsertAll_spec xs h ha (fun p hp => hok p (by simp [hp])) (by omega)
      refine ⟨m', ?_, ?_⟩
      · simpa [reinsertAll] using hr
      · cases o <;> simpa [foldUpd] using h'
    · cases o with
      | none => exact absurd rfl (hok (k, none) (by simp) hk)
      | some v =>
        obtain ⟨m1, hr1, hw1, ha1, hl1, haa1, hit1⟩ :=
          insertRaw_spec h ha v hk (Or.inl (h.free (by omega)))
        obtain ⟨m', hr, hw, ha', hl, haa⟩ := reinsertAll_spec xs hw1 ha1
          (fun p hp => hok p (by simp [hp])) (by omega)
        refine ⟨m', ?_, hw, ?_, hl.trans hl1, haa.trans haa1⟩
        · have := hr1.bind (g := fun n r => reinsertAll n xs r.1) hr
          simpa [reinsertAll, hk] using this
        · simpa [foldUpd, hk] using ha'

theorem rehash_spec {m : LpMap} {f : Nat → Option Nat} (h : m.WF) (ha : m.Abs f) {n : Nat}
    (hn : m.keys.length ≤ n) :
    ∃ m', Returns (fun fl => m.rehash fl n) m' ∧ m'.WF ∧ m'.Abs f ∧
      m'.keys.length = nextPow2 n ∧ m'.a = m.a ∧ m'.items = m.items := by
  have hpos := h.pos
  have hn0 : 0 < n := by omega
  obtain ⟨m', hr, hw, ha', hl, haa⟩ := reinsertAll_spec (m.keys.zip m.vals)
    (wf_empty m hn0) (abs_empty m (nextPow2 n)) h.slotsOk (by
      have := le_nextPow2 n
      have := h.vlen
      simp; omega)
  have habs : m'.Abs f := by
    intro k v hk
    rw [← ha' k v hk]
    have key : foldUpd (fun _ => true) (fun _ => none) (m.keys.zip m.vals) k = f k := by
      cases hf : f k with
      | none =>
        rw [foldUpd_not_mem _ _ _ _ hk]
        intro _ v' hm
        have := (ha k v' hk).2 ((has_iff_mem h _ _).2 hm)
        rw [hf] at this; cases this
      | some w =>
        exact foldUpd_mem _ _ _ _ _ hk rfl h.slots_distinct
          ((has_iff_mem h _ _).1 ((ha k w hk).1 hf))
    rw [key]
  refine ⟨m', hr, hw, habs, by simpa using hl, haa, items_eq hw habs h ha⟩

theorem insert_spec {m : LpMap} {f : Nat → Option Nat} (h : m.WF) (ha : m.Abs f) {k : Nat} (v : Nat)
    (hk : k ≠ 0) :
    ∃ m', Returns (fun n => m.insert n k v) (m', decide (f k = none)) ∧ m'.WF ∧
      m'.Abs (Function.update f k (some v)) ∧ m.keys.length ≤ m'.keys.length ∧ m'.a = m.a ∧
      m'.items ≤ m.items + 1 := by
  have hpos := h.pos
  have hle := h.items_le
  unfold LpMap.insert
  simp only [capacity, hpos.ne', if_false]
  by_cases hg : 1 ≤ m.items / m.keys.length
  · simp only [hg, if_true]
    obtain ⟨m1, hr1, hw1, ha1, hl1, haa1, hit1⟩ := rehash_spec h ha (n := m.keys.length * 2) (by omega)
    have hbig := le_nextPow2 (m.keys.length * 2)
    obtain ⟨m', hr, hw, ha', hl, haa, hit⟩ := insertRaw_spec hw1 ha1 v hk
      (Or.inl (hw1.free (by omega)))
    exact ⟨m', hr1.bind (g := fun n m' => insertRaw n m' k v) hr, hw, ha', by omega,
      haa.trans haa1, by omega⟩
  · simp only [hg, if_false]
    have : m.items < m.keys.length := by
      by_contra hc
      exact hg ((Nat.one_le_div_iff hpos).2 (by omega))
    obtain ⟨m', hr, hw, ha', hl, haa, hit⟩ := insertRaw_spec h ha v hk (Or.inl (h.free this))
    exact ⟨m', hr, hw, ha', by omega, haa, hit⟩

theorem insertAll_spec : ∀ (l : List (Nat × Option Nat)) {m : LpMap} {f : Nat → Option Nat},
    m.WF → m.Abs f → SlotsOk l →
    ∃ m', Returns (fun n => insertAll n l m) m' ∧ m'.WF ∧
      m'.Abs (foldUpd (fun _ => true) f l) ∧ m.keys.length ≤ m'.keys.length ∧ m'.a = m.a ∧
      m'.items ≤ m.items + l.length
  | [], m, f, h, ha, _ => ⟨m, Returns.pure _, h, ha, le_rfl, rfl, le_rfl⟩
  | (k, o) :: xs, m, f, h, ha, hok => by
    by_cases hk : k = 0
    · subst hk
      obtain ⟨m', hr, h1, h2, h3, h4, h5⟩ := insertAll_spec xs h ha (fun p hp => hok p (by simp [hp]))
      refine ⟨m', ?_, h1, ?_, h3, h4, by simp; omega⟩
      · simpa [insertAll] using hr
      · cases o <;> simpa [foldUpd] using h2
    · cases o with
      | none => exact absurd rfl (hok (k, none) (by simp) hk)
      | some v =>
        obtain ⟨m1, hr1, hw1, ha1, hl1, haa1, hit1⟩ := insert_spec h ha v hk
        obtain ⟨m', hr, hw, ha', hl, haa, hit⟩ := insertAll_spec xs hw1 ha1
          (fun p hp => hok p (by simp [hp]))
        refine ⟨m', ?_, hw, ?_, hl1.trans hl, haa.trans haa1, by simp; omega⟩
        · have := hr1.bind (g := fun n r => insertAll n xs r.1) hr
          simpa [insertAll, hk] using this
        · simpa [foldUpd, hk] using ha'

/-- right-biased union of finite functions restricted to the keys satisfying `P` -/
def over (P : Nat → Bool) (f g : Nat → Option Nat) (k : Nat) : Option Nat :=
  if P k then (g k).or (f k) else f k

theorem foldUpd_over {t : LpMap} {f g : Nat → Option Nat} (P : Nat → Bool) (h : t.WF) (ha : t.Abs g)
    {k : Nat} (hk : k ≠ 0) : foldUpd P f (t.keys.zip t.vals) k = over P f g k := by
  unfold over
  by_cases hP : P k = true
  · rw [if_pos hP]
    cases hg : g k with
    | none =>
      rw [foldUpd_not_mem _ _ _ _ hk]
      · rfl
      · intro _ v' hm
        have := (ha k v' hk).2 ((has_iff_mem h _ _).2 hm)
        rw [hg] at this; cases this
    | some w =>
      rw [foldUpd_mem _ _ _ _ _ hk hP h.slots_distinct ((has_iff_mem h _ _).1 ((ha k w hk).1 hg))]
      rfl
  · rw [if_neg hP, foldUpd_not_mem _ _ _ _ hk]
    intro hp; exact absurd hp hP

theorem abs_congr {m : LpMap} {f g : Nat → Option Nat} (ha : m.Abs f)
    (h : ∀ k, k ≠ 0 → f k = g k) : m.Abs g := by
  intro k v hk
  rw [← h k hk]; exact ha k v hk

theorem merge_spec {m t : LpMap} {f g : Nat → Option Nat} (h : m.WF) (ha : m.Abs f) (ht : t.WF)
    (hg : t.Abs g) :
    ∃ m', Returns (fun n => m.merge n t) m' ∧ m'.WF ∧ m'.Abs (over (fun _ => true) f g) ∧
      m'.items < m'.keys.length := by
  have hpos := h.pos
  have hle := h.items_le
  obtain ⟨m1, hr1, hw1, ha1, hl1, haa1, hit1⟩ := rehash_spec h ha
    (n := (m.keys.length + t.keys.length) * 2) (by omega)
  obtain ⟨m', hr, hw, ha', hl, haa, hit⟩ := insertAll_spec (t.keys.zip t.vals) hw1 ha1 ht.slotsOk
  have hbig := le_nextPow2 ((m.keys.length + t.keys.length) * 2)
  refine ⟨m', ?_, hw, abs_congr ha' (fun k hk => foldUpd_over _ ht hg hk), ?_⟩
  · exact hr1.bind (g := fun n m' => insertAll n (t.keys.zip t.vals) m') hr
  · have : (t.keys.zip t.vals).length ≤ t.keys.length := by simp
    omega

/-! filtered versions -/

theorem reinsertFiltered_spec (F : LpSet) (hF : F.WF) (hF0 : 0 ∈ F.arr) :
    ∀ (l : List (Nat × Option Nat)) {m : LpMap} {f : Nat → Option Nat},
    m.WF → m.Abs f → SlotsOk l → m.items + l.length ≤ m.keys.length →
    ∃ m', Returns (fun n => reinsertFiltered n F l m) m' ∧ m'.WF ∧
      m'.Abs (foldUpd (fun k => decide (k ∉ F.keys)) f l) ∧ m'.keys.length = m.keys.length ∧
      m'.a = m.a ∧ m'.items ≤ m.items + l.length
  | [], m, f, h, ha, _, _ => ⟨m, Returns.pure _, h, ha, rfl, rfl, le_rfl⟩
  | (k, o) :: xs, m, f, h, ha, hok, hle => by
    simp only [List.length_cons] at hle
    by_cases hk : k = 0
    · subst hk
      obtain ⟨m', hr, h1, h2, h3, h4, h5⟩ := reinsertFiltered_spec F hF hF0 xs h ha
        (fun p hp => hok p (by simp [hp])) (by omega)
      refine ⟨m', ?_, h1, ?_, h3, h4, by simp; omega⟩
      · simpa [reinsertFiltered] using hr
      · cases o <;> simpa [foldUpd] using h2
    · cases o with
      | none => exact absurd rfl (hok (k, none) (by simp) hk)
      | some v =>
        have hc := LpSet.contains_spec hF hk (Or.inl hF0)
        by_cases hin : k ∈ F.keys
        · obtain ⟨m', hr, h1, h2, h3, h4, h5⟩ := reinsertFiltered_spec F hF hF0 xs h ha
            (fun p hp => hok p (by simp [hp])) (by omega)
          refine ⟨m', ?_, h1, ?_, h3, h4, by simp; omega⟩
          · have := hc.bind (g := fun n c => if c then reinsertFiltered n F xs m
              else (insertRaw n m k v).bind fun r => reinsertFiltered n F xs r.1) (b := m')
              (by simpa [hin] using hr)
            simpa [reinsertFiltered, hk] using this
          · simpa [foldUpd, hk, hin] using h2
        · obtain ⟨m1, hr1, hw1, ha1, hl1, haa1, hit1⟩ :=
            insertRaw_spec h ha v hk (Or.inl (h.free (by omega)))
          obtain ⟨m', hr, hw, ha', hl, haa, hit⟩ := reinsertFiltered_spec F hF hF0 xs hw1 ha1
            (fun p hp => hok p (by simp [hp])) (by omega)
          refine ⟨m', ?_, hw, ?_, hl.trans hl1, haa.trans haa1, by simp; omega⟩
          · have := hc.bind (g := fun n c => if c then reinsertFiltered n F xs m
              else (insertRaw n m k v).bind fun r => reinsertFiltered n F xs r.1) (b := m')
              (by simpa [hin] using hr1.bind (g := fun n r => reinsertFiltered n F xs r.1) hr)
            simpa [reinsertFiltered, hk] using this
          · simpa [foldUpd, hk, hin] using ha'

theorem insertFiltered_spec (F : LpSet) (hF : F.WF) (hF0 : 0 ∈ F.arr) :
    ∀ (l : List (Nat × Option Nat)) {m : LpMap} {f : Nat → Option Nat},
    m.WF → m.Abs f → SlotsOk l →
    ∃ m', Returns (fun n => insertFiltered n F l m) m' ∧ m'.WF ∧
      m'.Abs (foldUpd (fun k => decide (k ∉ F.keys)) f l) ∧ m.keys.length ≤ m'.keys.length ∧
      m'.a = m.a ∧ m'.items ≤ m.items + l.length
  | [], m, f, h, ha, _ => ⟨m, Returns.pure _, h, ha, le_rfl, rfl, le_rfl⟩
  | (k, o) :: xs, m, f, h, ha, hok => by
    by_cases hk : k = 0
    · subst hk
      obtain ⟨m', hr, h1, h2, h3, h4, h5⟩ := insertFiltered_spec F hF hF0 xs h ha
        (fun p hp => hok p (by simp [hp]))
      refine ⟨m', ?_, h1, ?_, h3, h4, by simp; omega⟩
      · simpa [insertFiltered] using hr
      · cases o <;> simpa [foldUpd] using h2
    · cases o with
      | none => exact absurd rfl (hok (k, none) (by simp) hk)
      | some v =>
        have hc := LpSet.contains_spec hF hk (Or.inl hF0)
        by_cases hin : k ∈ F.keys
        · obtain ⟨m', hr, h1, h2, h3, h4, h5⟩ := insertFiltered_spec F hF hF0 xs h ha
            (fun p hp => hok p (by simp [hp]))
          refine ⟨m', ?_, h1, ?_, h3, h4, by simp; omega⟩
          · have := hc.bind (g := fun n c => if c then insertFiltered n F xs m
              else (LpMap.insert n m k v).bind fun r => insertFiltered n F xs r.1) (b := m')
              (by simpa [hin] using hr)
            simpa [insertFiltered, hk] using this
          · simpa [foldUpd, hk, hin] using h2
        · obtain ⟨m1, hr1, hw1, ha1, hl1, haa1, hit1⟩ := insert_spec h ha v hk
          obtain ⟨m', hr, hw, ha', hl, haa, hit⟩ := insertFiltered_spec F hF hF0 xs hw1 ha1
            (fun p hp => hok p (by simp [hp]))
          refine ⟨m', ?_, hw, ?_, hl1.trans hl, haa.trans haa1, by simp; omega⟩
          · have := hc.bind (g := fun n c => if c then insertFiltered n F xs m
              else (LpMap.insert n m k v).bind fun r => insertFiltered n F xs r.1) (b := m')
              (by simpa [hin] using hr1.bind (g := fun n r => insertFiltered n F xs r.1) hr)
            simpa [insertFiltered, hk] using this
          · simpa [foldUpd, hk, hin] using ha'

theorem mergeFilter_spec {m t : LpMap} {f g : Nat → Option Nat} {F : LpSet} (h : m.WF)
    (ha : m.Abs f) (ht : t.WF) (hg : t.Abs g) (hF : F.WF) (hF0 : 0 ∈ F.arr) :
    ∃ m', Returns (fun n => m.mergeFilter n t F) m' ∧ m'.WF ∧
      m'.Abs (fun k => if k ∈ F.keys then none else (g k).or (f k)) ∧
      m'.items < m'.keys.length := by
  have hpos := h.pos
  have hle := h.items_le
  have hbig := le_nextPow2 ((m.keys.length + t.keys.length) * 2)
  have hz1 : (m.keys.zip m.vals).length ≤ m.keys.length := by simp
  have hz2 : (t.keys.zip t.vals).length ≤ t.keys.length := by simp
  obtain ⟨m1, hr1, hw1, ha1, hl1, haa1, hit1⟩ := reinsertFiltered_spec F hF hF0 (m.keys.zip m.vals)
    (wf_empty m (n := (m.keys.length + t.keys.length) * 2) (by omega))
    (abs_empty m _) h.slotsOk (by simp; omega)
  obtain ⟨m', hr, hw, ha', hl, haa, hit⟩ := insertFiltered_spec F hF hF0 (t.keys.zip t.vals) hw1 ha1
    ht.slotsOk
  refine ⟨m', ?_, hw, abs_congr ha' (fun k hk => ?_), ?_⟩
  · exact hr1.bind (g := fun n m' => insertFiltered n F (t.keys.zip t.vals) m') hr
  · rw [foldUpd_over _ ht hg hk]
    unfold over
    by_cases hin : k ∈ F.keys
    · simp only [hin, not_true_eq_false, decide_false, if_true, Bool.false_eq_true, if_false]
      rw [foldUpd_over _ h ha hk]
      simp [over, hin]
    · simp only [hin, not_false_eq_true, decide_true, if_true, if_false]
      rw [foldUpd_over _ h ha hk]
      simp [over, hin]
  · simp at hl1 hit1; omega

/-! `get` -/

theorem get_present {m : LpMap} {f : Nat → Option Nat} (h : m.WF) (ha : m.Abs f) {k v : Nat}
    (hk : k ≠ 0) (hf : f k = some v) : Returns (fun n => m.get n k) v := by
  have hm : k ∈ m.keys := (mem_keys_iff h ha hk).2 (by rw [hf]; simp)
  obtain ⟨i, hi, x, hx, hr, hcase⟩ := probe_spec h hk (Or.inr hm)
  rcases hcase with rfl | ⟨_, hn, _⟩
  · have hv := (has_unique h hk hx v).1 ((ha _ _ hk).1 hf)
    have := hr.bind (g := fun _ r => if r.2 = x then
      (match m.vals[r.1]? with
      | some (some v) => Res.done v
      | _ => .ub) else .done 0) (b := v) (by simp [hv]; exact Returns.pure _)
    exact this
  · exact absurd hm hn

theorem get_absent {m : LpMap} {f : Nat → Option Nat} (h : m.WF) (ha : m.Abs f) {k : Nat}
    (hk : k ≠ 0) (hf : f k = none) (hfree : m.items < m.keys.length) :
    Returns (fun n => m.get n k) 0 := by
  have hm : k ∉ m.keys := fun hm => (mem_keys_iff h ha hk).1 hm hf
  obtain ⟨i, hi, x, hx, hr, hcase⟩ := probe_spec h hk (Or.inl (h.free hfree))
  rcases hcase with rfl | ⟨rfl, hn, _⟩
  · exact absurd (List.mem_of_getElem? hx) hm
  · have := hr.bind (g := fun _ r => if r.2 = k then
      (match m.vals[r.1]? with
      | some (some v) => Res.done v
      | _ => .ub) else .done 0) (b := 0) (by simp [Ne.symm hk]; exact Returns.pure _)
    exact this

theorem get_full {m : LpMap} {f : Nat → Option Nat} (h : m.WF) (ha : m.Abs f) {k : Nat}
    (hk : k ≠ 0) (hf : f k = none) (hfull : m.items = m.keys.length) :
    Diverges (fun n => m.get n k) := by
  obtain ⟨p, hp⟩ := h.pow
  have hm : k ∉ m.keys := fun hm => (mem_keys_iff h ha hk).1 hm hf
  have h0 : 0 ∉ m.keys := by
    have : occ m.keys = m.keys.length := by rw [← h.cnt]; exact hfull
    unfold occ at this
    rw [List.countP_eq_length] at this
    intro hz
    have := this 0 hz
    simp at this
  have hd := probeLoop_diverges hp k (hash64 m.a k) (fun e =>
    ⟨fun hz => h0 (hz ▸ sl_mem h.pos _), fun hz => hm (hz ▸ sl_mem h.pos _)⟩)
  intro n
  have := hd n
  simp only at this
  simp [get, this]

end LpMap
end Verif
