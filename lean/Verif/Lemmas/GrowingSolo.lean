import Verif.Lemmas.Migrate
import Verif.Model.Growing
import Mathlib.Logic.Relation

/-!
# The growing set used by one thread at a time

Between the calls the state is quiet: one current table, which all that is stored is in.
-/
namespace Verif
namespace Growing

/-- A step of an operation. -/
def SStep (x y : Shared × Loc) : Prop := step x.1 x.2 = some (y.1, .inl y.2)

/-- Steps of an operation while nobody else does anything. -/
def Go (s : Shared) (l : Loc) (s' : Shared) (l' : Loc) : Prop := Relation.ReflTransGen SStep (s, l) (s', l')

/-- An operation that runs alone from location `l` returns `r` and leaves the state `s'`. -/
def Solo (s : Shared) (l : Loc) (s' : Shared) (r : ConcSet.SetRet) : Prop :=
  ∃ s1 l1, Go s l s1 l1 ∧ step s1 l1 = some (s', .inr r)

theorem Go.one {s s' : Shared} {l l' : Loc} (h : step s l = some (s', .inl l')) : Go s l s' l' :=
  Relation.ReflTransGen.single h

theorem Go.trans {s1 s2 s3 : Shared} {l1 l2 l3 : Loc} (h : Go s1 l1 s2 l2) (h' : Go s2 l2 s3 l3) : Go s1 l1 s3 l3 :=
  Relation.ReflTransGen.trans h h'

theorem Go.solo {s1 s2 s3 : Shared} {l1 l2 : Loc} {r : ConcSet.SetRet} (h : Go s1 l1 s2 l2) (h' : Solo s2 l2 s3 r) :
    Solo s1 l1 s3 r := by
  obtain ⟨s, l, h1, h2⟩ := h'
  exact ⟨s, l, h.trans h1, h2⟩

theorem Solo.unique {s s1 s2 : Shared} {l : Loc} {r1 r2 : ConcSet.SetRet} (h1 : Solo s l s1 r1) (h2 : Solo s l s2 r2) :
    s1 = s2 ∧ r1 = r2 := by
  obtain ⟨a, la, g1, e1⟩ := h1
  obtain ⟨b, lb, g2, e2⟩ := h2
  have key : ∀ x y : Shared × Loc, Relation.ReflTransGen SStep x y → x = (s, l) → y = (a, la) → s1 = s2 ∧ r1 = r2 := by
    intro x y hxy
    unfold Go at g2
    revert g2
    generalize hz : (b, lb) = z
    intro g2
    induction hxy using Relation.ReflTransGen.head_induction_on generalizing s l with
    | refl =>
      rintro e rfl
      injection e with e3 e4
      subst e3 e4
      rcases Relation.ReflTransGen.cases_head g2 with e | ⟨w, hw, _⟩
      · rw [← hz] at e
        injection e with e5 e6
        subst e5 e6
        rw [e1] at e2
        injection e2 with e2
        injection e2 with e7 e8
        injection e8 with e8
        exact ⟨e7, e8⟩
      · simp only [SStep] at hw
        rw [e1] at hw
        cases hw
    | head h' _ ih =>
      rintro rfl e
      rename_i u v
      rcases Relation.ReflTransGen.cases_head g2 with e3 | ⟨w, hw, g3⟩
      · rw [← hz] at e3
        injection e3 with e5 e6
        subst e5 e6
        simp only [SStep] at h'
        rw [e2] at h'
        cases h'
      · simp only [SStep] at hw h'
        rw [h'] at hw
        injection hw with hw
        injection hw with e5 e6
        injection e6 with e6
        have e7 : u = w := Prod.ext e5 e6
        subst e7
        exact ih (s := u.1) (l := u.2) (by subst e; exact v) g3 rfl e
  exact key _ _ g1 rfl rfl

/-! ### One insertion into an array -/

/-- `v` has been inserted by linear probing. -/
def Ins (a : Nat) (arr : List Nat) (v : Nat) (arr' : List Nat) : Prop :=
  (v ∈ arr ∧ arr' = arr) ∨ ∃ d, sl arr (hash64 a v + d) = 0 ∧
    (∀ e, e < d → sl arr (hash64 a v + e) ≠ 0 ∧ sl arr (hash64 a v + e) ≠ v) ∧
    arr' = arr.set ((hash64 a v + d) % arr.length) v

/-- If no two keys have the same home slot, every key is in its home slot. -/
def Hm (a : Nat) (arr : List Nat) : Prop :=
  (∀ x ∈ arr, ∀ y ∈ arr, x ≠ 0 → y ≠ 0 → hash64 a x % arr.length = hash64 a y % arr.length → x = y) →
    ∀ i, i < arr.length → sl arr i ≠ 0 → hash64 a (sl arr i) % arr.length = i

theorem Ins.length {a v : Nat} {arr arr' : List Nat} (h : Ins a arr v arr') : arr'.length = arr.length := by
  rcases h with ⟨_, rfl⟩ | ⟨d, _, _, rfl⟩
  · rfl
  · simp

theorem sl_get {arr : List Nat} (hn : 0 < arr.length) (i : Nat) : arr[i % arr.length]? = some (sl arr i) := by
  have hl : i % arr.length < arr.length := Nat.mod_lt _ hn
  unfold sl
  rw [List.getD_eq_getElem _ _ hl, List.getElem?_eq_getElem hl]

theorem Ins.mem {a v : Nat} {arr arr' : List Nat} (hn : 0 < arr.length) (h : Ins a arr v arr') {x : Nat} (hx : x ≠ 0) :
    x ∈ arr' ↔ x ∈ arr ∨ x = v := by
  rcases h with ⟨h, rfl⟩ | ⟨d, h0, _, rfl⟩
  · constructor
    · exact Or.inl
    · rintro (h1 | rfl)
      · exact h1
      · exact h
  · exact mem_set_free (Nat.mod_lt _ hn) (by rw [sl_get hn, h0]) hx

theorem Ins.path {a v : Nat} {arr arr' : List Nat} (hn : 0 < arr.length) (h : Ins a arr v arr')
    (hp : PathOk (hash64 a) arr) : PathOk (hash64 a) arr' := by
  rcases h with ⟨_, rfl⟩ | ⟨d, h0, hb, rfl⟩
  · exact hp
  · exact hp.set hn h0 hb

theorem Ins.occ {a v : Nat} {arr arr' : List Nat} (hn : 0 < arr.length) (hv : v ≠ 0) (h : Ins a arr v arr') :
    occ arr' ≤ occ arr + 1 := by
  rcases h with ⟨_, rfl⟩ | ⟨d, h0, hb, rfl⟩
  · omega
  · rw [occ_set (Nat.mod_lt _ hn) (by rw [sl_get hn, h0]) hv]

theorem Ins.hm {a v : Nat} {arr arr' : List Nat} (hn : 0 < arr.length) (hv : v ≠ 0) (h : Ins a arr v arr')
    (hm : Hm a arr) : Hm a arr' := by
  rcases h with ⟨_, rfl⟩ | ⟨d, h0, hb, rfl⟩
  · exact hm
  · have hmem := fun x (hx : x ≠ 0) => mem_set_free (arr := arr) (i := (hash64 a v + d) % arr.length) (k := v) (x := x)
      (Nat.mod_lt _ hn) (by rw [sl_get hn, h0]) hx
    intro hi
    rw [List.length_set] at hi ⊢
    have hi' := hm (fun x hx y hy hx0 hy0 => hi x ((hmem x hx0).2 (Or.inl hx)) y ((hmem y hy0).2 (Or.inl hy)) hx0 hy0)
    have hd : d = 0 := by
      by_contra hd
      obtain ⟨h1, h2⟩ := hb 0 (by omega)
      rw [Nat.add_zero] at h1 h2
      have h3 := hi' (hash64 a v % arr.length) (Nat.mod_lt _ hn) (by rwa [sl_mod])
      rw [sl_mod] at h3
      exact h2 (hi _ ((hmem _ h1).2 (Or.inl (sl_mem hn _))) v ((hmem v hv).2 (Or.inr rfl)) h1 hv h3)
    subst hd
    intro i hil hne
    rw [Nat.add_zero] at hne ⊢
    rw [sl_set hn] at hne ⊢
    rw [Nat.mod_eq_of_lt hil] at hne ⊢
    split
    · rename_i e
      exact e.symm
    · rename_i e
      rw [if_neg e] at hne
      exact hi' i hil hne

theorem hm_replicate (a n : Nat) : Hm a (List.replicate n 0) := by
  intro _ i hi h
  exfalso
  apply h
  have := sl_mem (arr := List.replicate n 0) (by omega) i
  exact List.eq_of_mem_replicate this

/-! ### The migration by one thread -/

/-- A step of the migration without the log. -/
def MStep (old : List Nat) (x y : Nat × ConcSet.Shared × Nat × Migrate.Loc) : Prop :=
  ∃ cd, Migrate.step ⟨old, x.1, x.2.1, x.2.2.1, []⟩ x.2.2.2 = some (⟨old, y.1, y.2.1, y.2.2.1, cd⟩, .inl y.2.2.2)

/-- A state of the migration in which the counter of the new table is right. -/
def X (a cp : Nat) (arr : List Nat) (hp : Nat) (m : Migrate.Loc) : Nat × ConcSet.Shared × Nat × Migrate.Loc :=
  (cp, ⟨arr, occ arr, a⟩, hp, m)

theorem probe_run {a q cp hp v i e : Nat} {old arr : List Nat} (hl : arr.length = 2 ^ q) {c d : Nat}
    (hb : ∀ e, e < c + d → sl arr (hash64 a v + e) ≠ 0 ∧ sl arr (hash64 a v + e) ≠ v) {idx : Nat}
    (hi : idx % arr.length = (hash64 a v + c) % arr.length) :
    ∃ idx', idx' % arr.length = (hash64 a v + (c + d)) % arr.length ∧
      Relation.ReflTransGen (MStep old) (X a cp arr hp (.probe v idx i e)) (X a cp arr hp (.probe v idx' i e)) := by
  induction d generalizing c idx with
  | zero => exact ⟨idx, hi, .refl⟩
  | succ d ih =>
    have hmask : maskIdx arr.length idx = idx % arr.length := by rw [hl, maskIdx_pow]
    obtain ⟨idx', h1, h2⟩ := ih (c := c + 1) (fun e he => hb e (by omega)) (idx := maskIdx arr.length idx + 1) (by
      rw [hmask, Nat.mod_add_mod, ← Nat.mod_add_mod, hi, Nat.mod_add_mod, Nat.add_assoc])
    refine ⟨idx', by rw [h1]; congr 1; omega, .head ?_ h2⟩
    refine ⟨[], ?_⟩
    have hs : sl arr idx = sl arr (hash64 a v + c) := by rw [← sl_mod, hi, sl_mod]
    obtain ⟨h3, h4⟩ := hb c (by omega)
    rw [← hs] at h3 h4
    simp only [X, Migrate.step]
    rw [getElem?_mask hl]
    simp only [if_neg h4, ne_eq, h3, not_false_eq_true, if_true]

theorem put_run {a q cp hp v i e : Nat} {old arr : List Nat} (hl : arr.length = 2 ^ q) (hv : v ≠ 0)
    (hf : occ arr < arr.length) :
    ∃ arr', Ins a arr v arr' ∧
      Relation.ReflTransGen (MStep old) (X a cp arr hp (.probe v (hash64 a v) i e)) (X a cp arr' hp (Migrate.next i e)) := by
  have hn : 0 < arr.length := by omega
  obtain ⟨d, hd, hb⟩ := exists_stop hn (hash64 a v) v (Or.inl (zero_mem_of_occ_lt hf))
  obtain ⟨idx, h1, h2⟩ := probe_run (a := a) (cp := cp) (hp := hp) (v := v) (i := i) (e := e) (old := old) (c := 0) (d := d) hl
    (fun e he => hb e (by omega)) (idx := hash64 a v) rfl
  rw [Nat.zero_add] at h1
  have hmask : maskIdx arr.length idx = idx % arr.length := by rw [hl, maskIdx_pow]
  have hs : sl arr idx = sl arr (hash64 a v + d) := by rw [← sl_mod, h1, sl_mod]
  by_cases hk : sl arr (hash64 a v + d) = v
  · refine ⟨arr, Or.inl ⟨by rw [← hk]; exact sl_mem hn _, rfl⟩, h2.tail ⟨[], ?_⟩⟩
    simp only [X, Migrate.step]
    rw [getElem?_mask hl]
    simp only [hs, hk, if_true]
  · have h0 : sl arr (hash64 a v + d) = 0 := hd.resolve_right hk
    refine ⟨_, Or.inr ⟨d, h0, hb, rfl⟩, ?_⟩
    have hg : arr[(hash64 a v + d) % arr.length]? = some 0 := by rw [sl_get hn, h0]
    refine ((h2.tail (c := X a cp arr hp (.cas v ((hash64 a v + d) % arr.length) i e)) ⟨[], ?_⟩).tail
      (c := (cp, ⟨arr.set ((hash64 a v + d) % arr.length) v, occ arr, a⟩, hp, .incr i e)) ⟨[], ?_⟩).tail ⟨[], ?_⟩
    · simp only [X, Migrate.step]
      rw [getElem?_mask hl]
      rw [hs, h0, hmask, h1]
      simp only [if_neg (Ne.symm hv), ne_eq, not_true_eq_false, if_false]
    · simp only [X, Migrate.step]
      rw [hg]
      simp only [if_true]
    · simp only [X, Migrate.step]
      rw [occ_set (Nat.mod_lt _ hn) hg hv]

theorem slots_run {a q cp nh : Nat} {old : List Nat} : ∀ (n i e : Nat) (arr : List Nat), e - i = n → i < e → e ≤ old.length →
    arr.length = 2 ^ q → old.length < 2 ^ q → occ arr ≤ i → PathOk (hash64 a) arr → Hm a arr →
    ∃ arr', arr'.length = 2 ^ q ∧ PathOk (hash64 a) arr' ∧ Hm a arr' ∧ occ arr' ≤ e ∧
      (∀ x, x ≠ 0 → (x ∈ arr' ↔ x ∈ arr ∨ ∃ j, i ≤ j ∧ j < e ∧ old[j]? = some x)) ∧
      Relation.ReflTransGen (MStep old) (X a cp arr nh (.slot i e)) (X a cp arr' nh .claim) := by
  intro n
  induction n with
  | zero =>
    intro i e arr h1 h2
    omega
  | succ n ih =>
    intro i e arr hn hi he hl hlt ho hp hm
    have hio : i < old.length := by omega
    have hpos : 0 < arr.length := by rw [hl]; exact Nat.pow_pos (by omega)
    -- one slot
    have hone : ∃ arr1, arr1.length = 2 ^ q ∧ PathOk (hash64 a) arr1 ∧ Hm a arr1 ∧ occ arr1 ≤ i + 1 ∧
        (∀ x, x ≠ 0 → (x ∈ arr1 ↔ x ∈ arr ∨ old[i]? = some x)) ∧
        Relation.ReflTransGen (MStep old) (X a cp arr nh (.slot i e)) (X a cp arr1 nh (Migrate.next i e)) := by
      by_cases hv : old[i] = 0
      · refine ⟨arr, hl, hp, hm, by omega, fun x hx => ?_, .single ⟨[i], ?_⟩⟩
        · rw [List.getElem?_eq_getElem hio, hv]
          simp [Ne.symm hx]
        · simp only [X, Migrate.step, List.getElem?_eq_getElem hio, hv]
          simp
      · obtain ⟨arr1, h1, h2⟩ := put_run (a := a) (cp := cp) (hp := nh) (i := i) (e := e) (old := old) hl hv (by omega)
        refine ⟨arr1, by rw [h1.length, hl], h1.path hpos hp, h1.hm hpos hv hm, (h1.occ hpos hv).trans (by omega), fun x hx => ?_,
          .head ⟨[i], ?_⟩ h2⟩
        · rw [h1.mem hpos hx, List.getElem?_eq_getElem hio]
          simp [eq_comm]
        · simp only [X, Migrate.step, List.getElem?_eq_getElem hio]
          simp [hv]
    obtain ⟨arr1, h1, h2, h3, h4, h5, h6⟩ := hone
    by_cases hlast : i + 1 < e
    · obtain ⟨arr2, g1, g2, g3, g4, g5, g6⟩ := ih (i + 1) e arr1 (by omega) hlast he h1 hlt h4 h2 h3
      refine ⟨arr2, g1, g2, g3, g4, fun x hx => ?_, h6.trans ?_⟩
      · rw [g5 x hx, h5 x hx]
        constructor
        · rintro ((h | h) | ⟨j, hj⟩)
          · exact Or.inl h
          · exact Or.inr ⟨i, le_rfl, hi, h⟩
          · exact Or.inr ⟨j, by omega, hj.2⟩
        · rintro (h | ⟨j, h7, h8, h9⟩)
          · exact Or.inl (Or.inl h)
          · rcases Nat.eq_or_lt_of_le h7 with e | e
            · subst e
              exact Or.inl (Or.inr h9)
            · exact Or.inr ⟨j, e, h8, h9⟩
      · rwa [Migrate.next, if_pos hlast]
    · refine ⟨arr1, h1, h2, h3, by omega, fun x hx => ?_, by rwa [Migrate.next, if_neg hlast] at h6⟩
      rw [h5 x hx]
      constructor
      · rintro (h | h)
        · exact Or.inl h
        · exact Or.inr ⟨i, le_rfl, hi, h⟩
      · rintro (h | ⟨j, h7, h8, h9⟩)
        · exact Or.inl h
        · obtain rfl : j = i := by omega
          exact Or.inr h9

theorem blocks_run {a q nh : Nat} {old : List Nat} (hlt : old.length < 2 ^ q) : ∀ (n cp : Nat) (arr : List Nat),
    old.length - cp ≤ n → arr.length = 2 ^ q → occ arr ≤ cp → PathOk (hash64 a) arr → Hm a arr →
    ∃ cp' arr', arr'.length = 2 ^ q ∧ PathOk (hash64 a) arr' ∧ Hm a arr' ∧
      (∀ x, x ≠ 0 → (x ∈ arr' ↔ x ∈ arr ∨ ∃ j, cp ≤ j ∧ old[j]? = some x)) ∧
      Relation.ReflTransGen (MStep old) (X a cp arr nh .claim) (X a cp' arr' nh .leave) := by
  intro n
  induction n with
  | zero =>
    intro cp arr hn hl ho hp hm
    refine ⟨cp + Migrate.blockSize, arr, hl, hp, hm, fun x hx => ?_, .single ⟨[], ?_⟩⟩
    · constructor
      · exact Or.inl
      · rintro (h | ⟨j, h1, h2⟩)
        · exact h
        · rw [List.getElem?_eq_none (by omega)] at h2
          cases h2
    · exact if_neg (show ¬ cp < old.length by omega)
  | succ n ih =>
    intro cp arr hn hl ho hp hm
    by_cases hc : cp < old.length
    · obtain ⟨arr1, h1, h2, h3, h4, h5, h6⟩ := slots_run (a := a) (cp := cp + Migrate.blockSize) (nh := nh) (old := old) _ cp
        (min (cp + Migrate.blockSize) old.length) arr rfl (by simp only [Migrate.blockSize]; omega) (by omega) hl hlt ho hp hm
      obtain ⟨cp', arr2, g1, g2, g3, g4, g5⟩ := ih (cp + Migrate.blockSize) arr1
        (by simp only [Migrate.blockSize]; omega) h1 (by omega) h2 h3
      refine ⟨cp', arr2, g1, g2, g3, fun x hx => ?_, .head ⟨[], ?_⟩ (h6.trans g5)⟩
      · rw [g4 x hx, h5 x hx]
        constructor
        · rintro ((h | ⟨j, hj1, hj2, hj3⟩) | ⟨j, hj1, hj2⟩)
          · exact Or.inl h
          · exact Or.inr ⟨j, hj1, hj3⟩
          · exact Or.inr ⟨j, by omega, hj2⟩
        · rintro (h | ⟨j, hj1, hj2⟩)
          · exact Or.inl (Or.inl h)
          · have hj : j < old.length := by
              by_contra hge
              rw [List.getElem?_eq_none (by omega)] at hj2
              cases hj2
            by_cases h7 : j < cp + Migrate.blockSize
            · exact Or.inl (Or.inr ⟨j, hj1, by omega, hj2⟩)
            · exact Or.inr ⟨j, by omega, hj2⟩
      · exact if_pos hc
    · exact (by
        refine ⟨cp + Migrate.blockSize, arr, hl, hp, hm, fun x hx => ?_, .single ⟨[], ?_⟩⟩
        · constructor
          · exact Or.inl
          · rintro (h | ⟨j, h1, h2⟩)
            · exact h
            · rw [List.getElem?_eq_none (by omega)] at h2
              cases h2
        · exact if_neg hc)

/-! ### A quiet state -/

/-- Between the calls: the current table has the slots `arr`, whose keys are counted, and no growth is in progress. -/
structure Quiet1 (a p : Nat) (s : Shared) (arr : List Nat) : Prop where
  tabs : ∃ pre, s.tabs = pre ++ [⟨⟨arr, occ arr, a⟩, 0⟩] ∧ pre.length = s.er
  ew : s.ew = s.er
  tr : s.tr = s.er
  hel : s.helpers = 0
  mult : s.mult = a
  len : arr.length = 2 ^ p
  path : PathOk (hash64 a) arr
  hm : Hm a arr
  hs : ∀ (h le lt : Nat), s.hs[h]? = some (le, lt) → le = lt ∧ le ≤ s.er

theorem Quiet1.get {a p : Nat} {s : Shared} {arr : List Nat} (h : Quiet1 a p s arr) :
    s.tabs[s.er]? = some ⟨⟨arr, occ arr, a⟩, 0⟩ := by
  obtain ⟨pre, h1, h2⟩ := h.tabs
  rw [h1, ← h2]
  simp

theorem step_tab {a p : Nat} {s : Shared} {arr : List Nat} (h : Quiet1 a p s arr) {hd : Nat}
    (hh : s.hs[hd]? = some (s.er, s.er)) {l l' : ConcSet.Loc}
    (hst : ConcSet.step true ⟨arr, occ arr, a⟩ l = some (⟨arr, occ arr, a⟩, .inl l')) :
    step s (.tab hd l) = some (s, .inl (.tab hd l')) := by
  simp only [step, hh, h.get, hst]
  congr 2
  have := h.get
  cases s
  simp only at this ⊢
  congr 1
  obtain ⟨h1, h2⟩ := List.getElem?_eq_some_iff.1 this
  rw [← h2]
  exact List.set_getElem_self h1

theorem set_self {a p : Nat} {s : Shared} {arr : List Nat} (h : Quiet1 a p s arr) :
    ({ s with tabs := s.tabs.set s.er ⟨⟨arr, occ arr, a⟩, 0⟩ } : Shared) = s := by
  have := h.get
  cases s
  simp only at this ⊢
  congr 1
  obtain ⟨h1, h2⟩ := List.getElem?_eq_some_iff.1 this
  rw [← h2]
  exact List.set_getElem_self h1

/-- What an insertion into the current table does: the key is there, or it is written into the first free slot, or at least
eleven slots in a row are taken. -/
theorem probe_solo {a p : Nat} {s : Shared} {arr : List Nat} (h : Quiet1 a p s arr) {hd : Nat}
    (hh : s.hs[hd]? = some (s.er, s.er)) {k : Nat} (hk : k ≠ 0) : ∀ (n c idx : Nat), 11 - c = n → c ≤ 11 →
    idx % arr.length = (hash64 a k + c) % arr.length →
    (∀ e, e < c → sl arr (hash64 a k + e) ≠ 0 ∧ sl arr (hash64 a k + e) ≠ k) →
    (k ∈ arr ∧ Solo s (.tab hd (.probe k idx c)) s (.bool false)) ∨
    (∃ d, d ≤ 10 ∧ sl arr (hash64 a k + d) = 0 ∧ (∀ e, e < d → sl arr (hash64 a k + e) ≠ 0 ∧ sl arr (hash64 a k + e) ≠ k) ∧
      Solo s (.tab hd (.probe k idx c))
        { s with tabs := s.tabs.set s.er ⟨⟨arr.set ((hash64 a k + d) % arr.length) k, occ arr + 1, a⟩, 0⟩ } (.bool true)) ∨
    ((∀ e, e < 11 → sl arr (hash64 a k + e) ≠ 0 ∧ sl arr (hash64 a k + e) ≠ k) ∧
      Go s (.tab hd (.probe k idx c)) s (.g1 hd (.restart k))) := by
  have hn : 0 < arr.length := by rw [h.len]; exact Nat.pow_pos (by omega)
  intro n
  induction n with
  | zero =>
    intro c idx h1 h2 hi hb
    obtain rfl : c = 11 := by omega
    refine Or.inr (Or.inr ⟨hb, .one ?_⟩)
    simp only [step, hh, h.get, ConcSet.step]
    simp only [show (11 : Nat) > 10 by omega, and_self, if_true, set_self h]
  | succ n ih =>
    intro c idx h1 h2 hi hb
    have hs : sl arr idx = sl arr (hash64 a k + c) := by rw [← sl_mod, hi, sl_mod]
    have hmask : maskIdx arr.length idx = idx % arr.length := by rw [h.len, maskIdx_pow]
    have hc : ¬ (c > 10) := by omega
    by_cases hv : sl arr (hash64 a k + c) = k
    · refine Or.inl ⟨by rw [← hv]; exact sl_mem hn _, s, _, .refl, ?_⟩
      simp only [step, hh, h.get, ConcSet.step, getElem?_mask h.len, hs, hv, hc, and_false, if_false, if_true, set_self h]
    · by_cases h0 : sl arr (hash64 a k + c) = 0
      · refine Or.inr (Or.inl ⟨c, by omega, h0, hb, ?_⟩)
        have hg : arr[(hash64 a k + c) % arr.length]? = some 0 := by rw [sl_get hn, h0]
        have e1 : Go s (.tab hd (.probe k idx c)) s (.tab hd (.cas k ((hash64 a k + c) % arr.length) c)) := by
          refine .one (step_tab h hh ?_)
          simp only [ConcSet.step, getElem?_mask h.len, hs, h0, hc, and_false, if_false, if_neg (Ne.symm hk), ne_eq,
            not_true_eq_false, hmask, hi, hg]
        have e2 : Go s (.tab hd (.cas k ((hash64 a k + c) % arr.length) c))
            { s with tabs := s.tabs.set s.er ⟨⟨arr.set ((hash64 a k + c) % arr.length) k, occ arr, a⟩, 0⟩ }
            (.tab hd (.incr k)) := by
          refine .one ?_
          simp only [step, hh, h.get, ConcSet.step, hg, if_true]
        refine (e1.trans e2).solo ⟨_, _, .refl, ?_⟩
        have hlt : s.er < s.tabs.length := by
          obtain ⟨h1, _⟩ := List.getElem?_eq_some_iff.1 h.get
          exact h1
        simp only [step, hh, ConcSet.step, List.getElem?_set_self hlt, List.set_set]
      · have e1 : Go s (.tab hd (.probe k idx c)) s (.tab hd (.probe k (maskIdx arr.length idx + 1) (c + 1))) := by
          refine .one (step_tab h hh ?_)
          simp only [ConcSet.step, getElem?_mask h.len, hs, hc, and_false, if_false, if_neg hv, ne_eq, h0,
            not_false_eq_true, if_true]
        rcases ih (c + 1) (maskIdx arr.length idx + 1) (by omega) (by omega) (by
            rw [hmask, Nat.mod_add_mod, ← Nat.mod_add_mod, hi, Nat.mod_add_mod, Nat.add_assoc]) (by
            intro e he
            by_cases h3 : e = c
            · subst h3
              exact ⟨h0, hv⟩
            · exact hb e (by omega)) with ⟨g1, g2⟩ | ⟨d, g1, g2, g3, g4⟩ | ⟨g1, g2⟩
        · exact Or.inl ⟨g1, e1.solo g2⟩
        · exact Or.inr (Or.inl ⟨d, g1, g2, g3, e1.solo g4⟩)
        · exact Or.inr (Or.inr ⟨g1, e1.trans g2⟩)

/-! ### Growing -/

/-- The state during the migration to the table `new`. -/
def st (s : Shared) (pre : List Tab) (a : Nat) (arr : List Nat) (x : Nat × ConcSet.Shared × Nat × Migrate.Loc) : Shared :=
  ⟨pre ++ [⟨⟨arr, occ arr, a⟩, x.1⟩, ⟨x.2.1, 0⟩], s.er + 1, s.er, s.er, x.2.2.1, s.hs⟩

theorem mig_step {s : Shared} {pre : List Tab} {a : Nat} {arr : List Nat} (hpre : pre.length = s.er) {hd : Nat}
    (hh : s.hs[hd]? = some (s.er, s.er)) {c : Cont} {x y : Nat × ConcSet.Shared × Nat × Migrate.Loc} (h : MStep arr x y) :
    step (st s pre a arr x) (.mig hd (s.er + 1) x.2.2.2 c) = some (st s pre a arr y, .inl (.mig hd (s.er + 1) y.2.2.2 c)) := by
  obtain ⟨cd, h⟩ := h
  have e1 : (st s pre a arr x).tabs[s.er]? = some ⟨⟨arr, occ arr, a⟩, x.1⟩ := by
    simp only [st]
    rw [← hpre]
    simp
  have e2 : (st s pre a arr x).tabs[s.er + 1]? = some ⟨x.2.1, 0⟩ := by
    simp only [st]
    rw [← hpre]
    simp
  have e3 : (st s pre a arr x).hs[hd]? = some (s.er, s.er) := hh
  simp only [step, e1, e2, e3]
  have e4 : (st s pre a arr x).helpers = x.2.2.1 := rfl
  rw [e4, h]
  simp only
  congr 2
  simp only [st]
  congr 1
  rw [← hpre]
  rw [List.set_append_right _ _ (by omega), List.set_append_right _ _ (by omega)]
  simp

theorem mig_go {s : Shared} {pre : List Tab} {a : Nat} {arr : List Nat} (hpre : pre.length = s.er) {hd : Nat}
    (hh : s.hs[hd]? = some (s.er, s.er)) {c : Cont} {x y : Nat × ConcSet.Shared × Nat × Migrate.Loc}
    (h : Relation.ReflTransGen (MStep arr) x y) :
    Go (st s pre a arr x) (.mig hd (s.er + 1) x.2.2.2 c) (st s pre a arr y) (.mig hd (s.er + 1) y.2.2.2 c) := by
  induction h with
  | refl => exact .refl
  | tail _ h1 ih => exact Relation.ReflTransGen.tail ih (mig_step hpre hh h1)

/-- A growth by one thread that works alone: afterwards the current table has twice the size and the same keys. -/
theorem grow_go {a p : Nat} {s : Shared} {arr : List Nat} (h : Quiet1 a p s arr) {hd : Nat}
    (hh : s.hs[hd]? = some (s.er, s.er)) (k : Nat) :
    ∃ s' arr', Quiet1 a (p + 1) s' arr' ∧ s'.hs[hd]? = some (s'.er, s'.er) ∧ s'.hs.length = s.hs.length ∧
      (∀ x, x ≠ 0 → (x ∈ arr' ↔ x ∈ arr)) ∧ occ arr' = occ arr ∧
      Go s (.g1 hd (.restart k)) s' (.ins0 hd k) := by
  obtain ⟨pre, ht, hpre⟩ := h.tabs
  have hnew : ConcSet.new a (arr.length * 2) = ⟨List.replicate (2 ^ (p + 1)) 0, occ (List.replicate (2 ^ (p + 1)) 0), a⟩ := by
    unfold ConcSet.new
    rw [h.len, ← pow_succ, nextPow2_pow, occ_replicate]
  have hlt : arr.length < 2 ^ (p + 1) := by
    rw [h.len, pow_succ]
    have := Nat.pow_pos (n := p) (show 0 < 2 by omega)
    omega
  obtain ⟨cp', arr', b1, b2, b3, b4, b5⟩ := blocks_run (a := a) (nh := s.helpers + 1) hlt arr.length 0
    (List.replicate (2 ^ (p + 1)) 0) (by omega) (by simp) (by rw [occ_replicate]) (pathOk_replicate _ _) (hm_replicate _ _)
  have hlen : s.tabs.length = s.er + 1 := by rw [ht]; simp [hpre]
  have hhlt : hd < s.hs.length := by
    obtain ⟨h1, _⟩ := List.getElem?_eq_some_iff.1 hh
    exact h1
  have hmem : ∀ x, x ≠ 0 → (x ∈ arr' ↔ x ∈ arr) := by
    intro x hx
    rw [b4 x hx]
    constructor
    · rintro (h1 | ⟨j, _, h1⟩)
      · exact absurd (List.eq_of_mem_replicate h1) hx
      · exact List.mem_of_getElem? h1
    · intro h1
      obtain ⟨j, h2⟩ := List.mem_iff_getElem?.1 h1
      exact Or.inr ⟨j, by omega, h2⟩
  -- the steps
  let z : Nat × ConcSet.Shared × Nat × Migrate.Loc := X a 0 (List.replicate (2 ^ (p + 1)) 0) s.helpers .enter
  let y : Nat × ConcSet.Shared × Nat × Migrate.Loc := X a cp' arr' s.helpers .wait
  have g1 : Go s (.g1 hd (.restart k)) { s with tabs := s.tabs ++ [⟨ConcSet.new a (arr.length * 2), 0⟩] }
      (.g2 hd (s.er + 1) (.restart k)) := by
    refine .one ?_
    simp only [step, hh, h.get, hlen]
    simp
  have g2 : Go { s with tabs := s.tabs ++ [⟨ConcSet.new a (arr.length * 2), 0⟩] } (.g2 hd (s.er + 1) (.restart k))
      (st s pre a arr z) (.mig hd (s.er + 1) .enter (.restart k)) := by
    refine .one ?_
    simp only [step, hh, h.ew, if_true, st, z, X, hnew, h.tr, ht]
    simp
  have g3 : Relation.ReflTransGen (MStep arr) z y := by
    refine .head (b := X a 0 (List.replicate (2 ^ (p + 1)) 0) (s.helpers + 1) .claim) ⟨[], rfl⟩ (b5.tail ⟨[], ?_⟩)
    simp only [X, Migrate.step, y]
    rfl
  have g4 : Go (st s pre a arr y) (.mig hd (s.er + 1) .wait (.restart k)) (st s pre a arr y) (.g8 hd (s.er + 1) (.restart k)) := by
    refine .one ?_
    have e1 : (st s pre a arr y).tabs[s.er]? = some ⟨⟨arr, occ arr, a⟩, cp'⟩ := by
      simp only [st, y, X]
      rw [← hpre]
      simp
    have e2 : (st s pre a arr y).tabs[s.er + 1]? = some ⟨⟨arr', occ arr', a⟩, 0⟩ := by
      simp only [st, y, X]
      rw [← hpre]
      simp
    have e3 : (st s pre a arr y).hs[hd]? = some (s.er, s.er) := hh
    have e4 : (st s pre a arr y).helpers = 0 := h.hel
    simp only [step, e1, e2, e3, Migrate.step, e4, if_true]
    congr 2
    simp only [st, y, X, h.hel]
    congr 1
    rw [← hpre]
    rw [List.set_append_right _ _ (by omega), List.set_append_right _ _ (by omega)]
    simp
  let u : Shared := ⟨pre ++ [⟨⟨arr, occ arr, a⟩, cp'⟩, ⟨⟨arr', occ arr', a⟩, 0⟩], s.er + 1, s.er + 1, s.er + 1, 0, s.hs⟩
  have g5 : Go (st s pre a arr y) (.g8 hd (s.er + 1) (.restart k)) u (.gt1 hd (.restart k)) := by
    have e3 : ∀ t : Shared, t.hs = s.hs → t.hs[hd]? = some (s.er, s.er) := fun t e => by rw [e]; exact hh
    refine (Go.one (s' := { st s pre a arr y with tr := s.er + 1 }) (l' := .g9 hd (s.er + 1) (.restart k)) ?_).trans (.one ?_)
    · simp only [step, st]
      simp
    · simp only [step, e3 { st s pre a arr y with tr := s.er + 1 } rfl]
      simp only [st, if_true, u, y, X, h.hel]
  let v : Shared := { u with hs := (s.hs.set hd (s.er + 1, s.er)).set hd (s.er + 1, s.er + 1) }
  have g6 : Go u (.gt1 hd (.restart k)) v (.ins0 hd k) := by
    refine (Go.one (s' := { u with hs := s.hs.set hd (s.er + 1, s.er) }) (l' := .gt2 hd (.restart k)) ?_).trans (.one ?_)
    · have : u.hs[hd]? = some (s.er, s.er) := hh
      simp only [step, this]
      rfl
    · have : ({ u with hs := s.hs.set hd (s.er + 1, s.er) } : Shared).hs[hd]? = some (s.er + 1, s.er) := by
        simp [hhlt]
      simp only [step, this]
      simp [u, v, afterGet]
  refine ⟨v, arr', ?_, ?_, by simp [v], hmem, ?_, ?_⟩
  · refine ⟨⟨pre ++ [⟨⟨arr, occ arr, a⟩, cp'⟩], by simp [v, u], by simp [v, u, hpre]⟩, rfl, rfl, rfl, ?_, b1, b2, b3, ?_⟩
    · have h1 := h.mult
      simp only [Shared.mult, ht, v, u] at h1 ⊢
      cases pre with
      | nil => rfl
      | cons q pre => exact h1
    · intro h' le lt hl
      simp only [v, u, List.set_set] at hl ⊢
      rw [List.getElem?_set] at hl
      split at hl
      · simp only [hhlt, if_true, Option.some.injEq, Prod.mk.injEq] at hl
        omega
      · obtain ⟨h1, h2⟩ := h.hs h' le lt hl
        exact ⟨h1, by omega⟩
  · simp [v, u, hhlt]
  · rw [b2.occ_eq_card, h.path.occ_eq_card]
    congr 1
    ext x
    simp only [Finset.mem_erase, List.mem_toFinset]
    constructor
    · rintro ⟨h1, h2⟩
      exact ⟨h1, (hmem x h1).1 h2⟩
    · rintro ⟨h1, h2⟩
      exact ⟨h1, (hmem x h1).2 h2⟩
  · exact g1.trans (g2.trans ((mig_go (c := .restart k) hpre hh g3).trans (g4.trans (g5.trans g6))))

end Growing
end Verif
