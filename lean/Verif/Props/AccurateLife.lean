import Verif.Model.AccurateLife
import Mathlib.Data.List.Basic

/-!
# C132: accurate grid checkers refer to sets that exist
-/
namespace Verif
namespace Life

mutual
/-- The addresses in the checkers of a tree. -/
def addrs : PTree Ref → List Nat
  | .leaf (some (.accurate _ a)) _ => [a]
  | .leaf _ _ => []
  | .node (some (.accurate _ a)) l => a :: addrsAll l
  | .node _ l => addrsAll l
/-- The addresses in the checkers of some trees. -/
def addrsAll : List (PTree Ref) → List Nat
  | [] => []
  | t :: l => addrs t ++ addrsAll l
end

private theorem addrs_setChk (t : PTree Ref) (F : Finset Nat) (a : Nat) (b : Nat) :
    b ∈ addrs (t.setChk (some (.accurate F a))) → b = a ∨ b ∈ addrs t := by
  cases t with
  | leaf c ids => intro h; exact .inl (by simpa [PTree.setChk, addrs] using h)
  | node c l =>
    intro h
    rcases List.mem_cons.mp (show b ∈ a :: addrsAll l by simpa [PTree.setChk, addrs] using h) with h' | h'
    · exact .inl h'
    · refine .inr ?_
      rcases c with _ | _ | _
      · simpa [addrs] using h'
      · simpa [addrs] using h'
      · simp [addrs, h']

private theorem get_new (m : Mem) (s : Finset Nat) : (m.new s).1.get (m.new s).2 = some s ∧ ∀ b < m.cells.length, (m.new s).1.get b = m.get b := by
  refine ⟨by simp [Mem.new, Mem.get], fun b hb => ?_⟩
  simp [Mem.new, Mem.get, List.getElem?_append_left hb]

private theorem get_free (m : Mem) (a b : Nat) : (m.free a).get b = if b = a then none else m.get b := by
  by_cases h : b = a
  · subst h
    by_cases hb : b < m.cells.length <;> simp [Mem.free, Mem.get, hb]
  · simp [Mem.free, Mem.get, List.getElem?_set_ne (Ne.symm h), h]

private theorem get_lt {m : Mem} {a : Nat} {ids : Finset Nat} (h : m.get a = some ids) : a < m.cells.length := by
  by_contra hc
  rw [Mem.get, List.getElem?_eq_none (by omega)] at h
  exact absurd h (by simp)

/-- What a call of `makePartitioning` does with the memory. -/
private theorem bipart_mem (D cutoff : Nat) (part : List Bool → Nat → Bool) : ∀ n path m a ids, m.get a = some ids →
    ∃ m' t, bipart D cutoff part n path m a = some (m', t) ∧ m.cells.length ≤ m'.cells.length ∧ (∀ b < m.cells.length, m'.get b = m.get b) ∧
      ∀ b, m.cells.length ≤ b → m'.get b = none := by
  intro n
  induction n using Nat.strong_induction_on with
  | _ n ih =>
    intro path m a ids h
    rw [bipart, h]
    dsimp only
    split
    · rename_i hc
      obtain ⟨n1, n2⟩ := get_new m (Checker.partIds D ids (fun i => (part path i).toNat) 0)
      obtain ⟨n3, n4⟩ := get_new (m.new (Checker.partIds D ids (fun i => (part path i).toNat) 0)).1 (Checker.partIds D ids (fun i => (part path i).toNat) 1)
      have l1 : (m.new (Checker.partIds D ids (fun i => (part path i).toNat) 0)).1.cells.length = m.cells.length + 1 := by simp [Mem.new]
      have a1 : (m.new (Checker.partIds D ids (fun i => (part path i).toNat) 0)).2 = m.cells.length := rfl
      generalize m.new (Checker.partIds D ids (fun i => (part path i).toNat) 0) = p1 at *
      obtain ⟨m1, la⟩ := p1
      have l2 : (m1.new (Checker.partIds D ids (fun i => (part path i).toNat) 1)).1.cells.length = m1.cells.length + 1 := by simp [Mem.new]
      have a2 : (m1.new (Checker.partIds D ids (fun i => (part path i).toNat) 1)).2 = m1.cells.length := rfl
      dsimp only at *
      generalize m1.new (Checker.partIds D ids (fun i => (part path i).toNat) 1) = p2 at *
      obtain ⟨m2, ra⟩ := p2
      dsimp only at *
      subst la
      subst ra
      obtain ⟨m3, lt, e3, l3, g3, d3⟩ := ih (n / 2) (by omega) (path ++ [false]) m2 m.cells.length _ ((n4 _ (by omega)).trans n1)
      obtain ⟨m4, rt, e4, l4, g4, d4⟩ := ih (n / 2) (by omega) (path ++ [true]) m3 m1.cells.length _ ((g3 _ (by omega)).trans n3)
      rw [e3, Option.bind_some]
      dsimp only
      rw [e4, Option.bind_some]
      refine ⟨_, _, rfl, ?_, ?_, ?_⟩
      · simp only [Mem.free, List.length_set]; omega
      · intro b hb
        rw [get_free, if_neg (by omega), get_free, if_neg (by omega), g4 b (by omega), g3 b (by omega), n4 b (by omega), n2 b hb]
      · intro b hb
        rw [get_free, get_free]
        split
        · rfl
        split
        · rfl
        by_cases hb3 : b < m3.cells.length
        · rw [g4 b hb3]
          exact d3 b (by omega)
        · exact d4 b (by omega)
    · exact ⟨m, _, rfl, le_rfl, fun _ _ => rfl, fun b hb => by rw [Mem.get, List.getElem?_eq_none hb]; rfl⟩

private theorem addrs_old (D cutoff : Nat) (part : List Bool → Nat → Bool) : ∀ n path m a m' t, bipart D cutoff part n path m a = some (m', t) →
    ∀ b ∈ addrs t, b = a ∨ m.cells.length ≤ b := by
  intro n
  induction n using Nat.strong_induction_on with
  | _ n ih =>
    intro path m a m' t h b hb
    cases hg : m.get a with
    | none => rw [bipart, hg] at h; exact absurd h (by simp)
    | some ids =>
      rw [bipart, hg] at h
      dsimp only at h
      split at h
      · rename_i hc
        obtain ⟨⟨m3, lt⟩, e3, h⟩ := Option.bind_eq_some_iff.mp h
        dsimp only at h
        obtain ⟨⟨m4, rt⟩, e4, h⟩ := Option.bind_eq_some_iff.mp h
        obtain ⟨rfl, rfl⟩ := Prod.mk.inj (Option.some.inj h)
        have hl : ((m.new (Checker.partIds D ids (fun i => (part path i).toNat) 0)).1.new
            (Checker.partIds D ids (fun i => (part path i).toNat) 1)).1.cells.length = m.cells.length + 2 := by simp [Mem.new]
        have hb' : b ∈ addrs (lt.setChk (some (.accurate (Checker.partIds D ids (fun i => (part path i).toNat) 0) a))) ∨
            b ∈ addrs (rt.setChk (some (.accurate (Checker.partIds D ids (fun i => (part path i).toNat) 1) a))) := by
          simpa [addrs, addrsAll] using hb
        rcases hb' with hb | hb
        · rcases addrs_setChk _ _ _ _ hb with hb | hb
          · exact .inl hb
          · rcases ih (n / 2) (by omega) _ _ _ _ _ e3 b hb with h | h
            · right; rw [h]; exact le_rfl
            · right; omega
        · rcases addrs_setChk _ _ _ _ hb with hb | hb2
          · exact .inl hb
          · obtain ⟨m3', lt', e3', l3, _⟩ := bipart_mem D cutoff part (n / 2) (path ++ [false])
              ((m.new (Checker.partIds D ids (fun i => (part path i).toNat) 0)).1.new (Checker.partIds D ids (fun i => (part path i).toNat) 1)).1
              m.cells.length (Checker.partIds D ids (fun i => (part path i).toNat) 0) (by simp [Mem.new, Mem.get])
            have e : (m3', lt') = (m3, lt) := Option.some.inj (e3'.symm.trans e3)
            obtain ⟨rfl, rfl⟩ := Prod.mk.inj e
            rcases ih (n / 2) (by omega) _ _ _ _ _ e4 b hb2 with h | h
            · right; rw [h]; simp [Mem.new]
            · right; omega
      · obtain ⟨rfl, rfl⟩ := Prod.mk.inj (Option.some.inj h)
        exact absurd hb (by simp [addrs])

mutual
/-- A tree with other checkers. -/
def mapChk {C : Type} (f : Ref → C) : PTree Ref → PTree C
  | .leaf c ids => .leaf (c.map f) ids
  | .node c l => .node (c.map f) (mapAll f l)
/-- Trees with other checkers. -/
def mapAll {C : Type} (f : Ref → C) : List (PTree Ref) → List (PTree C)
  | [] => []
  | t :: l => mapChk f t :: mapAll f l
end

private theorem mapChk_setChk {C : Type} (f : Ref → C) (c : Option Ref) (t : PTree Ref) : mapChk f (t.setChk c) = (mapChk f t).setChk (c.map f) := by
  cases t <;> simp [PTree.setChk, mapChk]

private theorem setChk_setChk {C : Type} (c d : Option C) (t : PTree C) : (t.setChk c).setChk d = t.setChk d := by
  cases t <;> rfl

private theorem bipart_same {D : Nat} {K : Type} [Field K] [LinearOrder K] [FloorRing K] (cutoff : Nat) (part : List Bool → Nat → Bool) (mk : Finset Nat → Chk D K)
    (f : Ref → Chk D K) (hf : ∀ F a, f (.accurate F a) = mk F) : ∀ n path m a ids bounds m' t, m.get a = some ids →
    bipart D cutoff part n path m a = some (m', t) → ∀ c, (mapChk f t).setChk c = (Build.bipart cutoff part mk n path bounds ids).setChk c := by
  intro n
  induction n using Nat.strong_induction_on with
  | _ n ih =>
    intro path m a ids bounds m' t hg h c
    rw [bipart, hg] at h
    rw [Build.bipart]
    dsimp only at h ⊢
    split at h
    · rename_i hc
      rw [if_pos hc]
      obtain ⟨⟨m3, lt⟩, e3, h⟩ := Option.bind_eq_some_iff.mp h
      dsimp only at h
      obtain ⟨⟨m4, rt⟩, e4, h⟩ := Option.bind_eq_some_iff.mp h
      obtain ⟨_, rfl⟩ := Prod.mk.inj (Option.some.inj h)
      have g1 : ((m.new (Checker.partIds D ids (fun i => (part path i).toNat) 0)).1.new (Checker.partIds D ids (fun i => (part path i).toNat) 1)).1.get
          m.cells.length = some (Checker.partIds D ids (fun i => (part path i).toNat) 0) := by simp [Mem.new, Mem.get]
      have g2 : ((m.new (Checker.partIds D ids (fun i => (part path i).toNat) 0)).1.new (Checker.partIds D ids (fun i => (part path i).toNat) 1)).1.get
          (m.cells.length + 1) = some (Checker.partIds D ids (fun i => (part path i).toNat) 1) := by simp [Mem.new, Mem.get]
      obtain ⟨m3', lt', e3', l3, g3, _⟩ := bipart_mem D cutoff part (n / 2) (path ++ [false]) _ _ _ g1
      have e : (m3', lt') = (m3, lt) := Option.some.inj (e3'.symm.trans e3)
      obtain ⟨rfl, rfl⟩ := Prod.mk.inj e
      have g4 : m3'.get (m.cells.length + 1) = some (Checker.partIds D ids (fun i => (part path i).toNat) 1) :=
        (g3 _ (by simp [Mem.new])).trans g2
      have hr : ((m.new (Checker.partIds D ids (fun i => (part path i).toNat) 0)).1.new (Checker.partIds D ids (fun i => (part path i).toNat) 1)).2 =
          m.cells.length + 1 := by simp [Mem.new]
      rw [hr] at e4
      have i1 := ih (n / 2) (by omega) _ _ _ _ (mk (Checker.partIds D ids (fun i => (part path i).toNat) 0)).bounds _ _ g1 e3
        (some (mk (Checker.partIds D ids (fun i => (part path i).toNat) 0)))
      have i2 := ih (n / 2) (by omega) _ _ _ _ (mk (Checker.partIds D ids (fun i => (part path i).toNat) 1)).bounds _ _ g4 e4
        (some (mk (Checker.partIds D ids (fun i => (part path i).toNat) 1)))
      simp only [mapChk, mapAll, mapChk_setChk, Option.map_some, hf]
      rw [i1, i2]
      rfl
    · rename_i hc
      rw [if_neg hc]
      obtain ⟨_, rfl⟩ := Prod.mk.inj (Option.some.inj h)
      rfl

/-- **C132 (same trees).** Apart from the addresses the tree is the one of the bipartitioner in C63 and C80, for every checker that is made for the ids of
a part. -/
theorem C132_same {D : Nat} {K : Type} [Field K] [LinearOrder K] [FloorRing K] (cutoff : Nat) (part : List Bool → Nat → Bool) (mk : Finset Nat → Chk D K)
    (n : Nat) (bounds : Box D K) (m : Mem) (a : Nat) (ids : Finset Nat) (ha : m.get a = some ids) :
    ∃ m' t, bipart D cutoff part n [] m a = some (m', t) ∧
      mapChk (fun | .box => .ofBox bounds | .accurate F _ => mk F) t = Build.bipart cutoff part mk n [] bounds ids := by
  obtain ⟨m', t, e, _⟩ := bipart_mem D cutoff part n [] m a ids ha
  refine ⟨m', t, e, ?_⟩
  have h := bipart_same cutoff part mk (fun | .box => .ofBox bounds | .accurate F _ => mk F) (fun _ _ => rfl) n [] m a ids bounds m' t ha e
  have hchk : (mapChk (fun | .box => .ofBox bounds | .accurate F _ => mk F) t).chk = (Build.bipart cutoff part mk n [] bounds ids).chk := by
    rw [bipart, ha] at e
    rw [Build.bipart]
    dsimp only at e ⊢
    split at e
    · rename_i hc
      rw [if_pos hc]
      obtain ⟨⟨m3, lt⟩, e3, e⟩ := Option.bind_eq_some_iff.mp e
      dsimp only at e
      obtain ⟨⟨m4, rt⟩, e4, e⟩ := Option.bind_eq_some_iff.mp e
      obtain ⟨_, rfl⟩ := Prod.mk.inj (Option.some.inj e)
      rfl
    · rename_i hc
      rw [if_neg hc]
      obtain ⟨_, rfl⟩ := Prod.mk.inj (Option.some.inj e)
      rfl
  have h' := h (Build.bipart cutoff part mk n [] bounds ids).chk
  have hs : ∀ t : PTree (Chk D K), t.setChk t.chk = t := fun t => by cases t <;> rfl
  rw [hs] at h'
  rw [← h', ← hchk, hs]

/-- **C132 (one level).** Called with a set of ids, the partitioners that assign all points at once return a tree whose checkers refer to
this set, which belongs to the caller; so a checker answers as `accurate` does for these ids. -/
theorem C132_assign (D n : Nat) (part : Nat → Nat) (m : Mem) (a : Nat) (ids : Finset Nat) (ha : m.get a = some ids)
    (hp : ∀ i ∈ ids, Part.isFinite D i = true → part i < n) :
    ∃ t, assign D n part m a = some t ∧ (∀ b ∈ addrs t, b = a) ∧ (∀ j < n, a ∈ addrs t) ∧
      ∀ {K : Type} [Field K] [LinearOrder K] [FloorRing K] (w : K) (T : Node D K) (inCell : Grid.Index D → Option (List Nat)) (inSph : Nat → Bool)
        (s : Sphere D K), intersects m a w T inCell inSph s = Checker.accurate w T inCell ids inSph s := by
  refine ⟨.node (some .box) ((List.range n).map fun j => .leaf (some (.accurate (Checker.partIds D ids part j) a)) (Checker.partIds D ids part j)), ?_,
    ?_, ?_, ?_⟩
  · simp only [assign, ha, Option.bind_eq_bind, Option.bind_some, if_pos hp]
  · have : ∀ l : List Nat, ∀ b ∈ addrsAll (l.map fun j => .leaf (some (.accurate (Checker.partIds D ids part j) a)) (Checker.partIds D ids part j)), b = a := by
      intro l
      induction l with
      | nil => simp [addrsAll]
      | cons j l ih => intro b hb; simp only [List.map_cons, addrsAll, addrs, List.mem_append, List.mem_singleton] at hb; exact hb.elim id (ih b)
    intro b hb
    exact this _ b (by simpa [addrs] using hb)
  · intro j hj
    obtain ⟨n, rfl⟩ : ∃ k, n = k + 1 := ⟨n - 1, by omega⟩
    simp [addrs, addrsAll, List.range_succ_eq_map]
  · intro K _ _ _ w T inCell inSph s
    simp only [intersects, ha]
    split
    · rename_i h
      rw [List.isEmpty_iff] at h
      simp [Checker.accurate, h]
    · rfl

/-- Two parts of three points in the plane. -/
example : ∃ t, assign 2 2 (fun i => i % 2) ⟨[some {1, 2, 3}]⟩ 0 = some t ∧ 0 ∈ addrs t := by
  obtain ⟨t, h1, _, h2, _⟩ := C132_assign 2 2 (fun i => i % 2) ⟨[some {1, 2, 3}]⟩ 0 {1, 2, 3} rfl (fun i _ _ => Nat.mod_lt _ (by omega))
  exact ⟨t, h1, h2 0 (by omega)⟩

/-- **C132** (partial: up to three parts, see `C132_bipart_violated`). For a set of ids that belongs to the caller, the bipartitioner returns, the set is
still there, all sets that it constructed are destroyed, and a checker of the tree refers to the set of the caller or to a destroyed one. With two or three
parts all checkers refer to the set of the caller. -/
theorem C132_bipart_partial (D cutoff : Nat) (part : List Bool → Nat → Bool) (n : Nat) (m : Mem) (a : Nat) (ids : Finset Nat) (ha : m.get a = some ids) :
    ∃ m' t, bipart D cutoff part n [] m a = some (m', t) ∧ m'.get a = some ids ∧ (∀ b, m.cells.length ≤ b → m'.get b = none) ∧
      (∀ b ∈ addrs t, b = a ∨ m'.get b = none) ∧ (n < 4 → ∀ b ∈ addrs t, b = a) := by
  obtain ⟨m', t, e, _, g, d⟩ := bipart_mem D cutoff part n [] m a ids ha
  refine ⟨m', t, e, (g a (get_lt ha)).trans ha, d, fun b hb => (addrs_old D cutoff part n [] m a m' t e b hb).imp id (d b), ?_⟩
  intro hn b hb
  rw [bipart, ha] at e
  dsimp only at e
  split at e
  · obtain ⟨⟨m3, lt⟩, e3, e⟩ := Option.bind_eq_some_iff.mp e
    dsimp only at e
    obtain ⟨⟨m4, rt⟩, e4, e⟩ := Option.bind_eq_some_iff.mp e
    obtain ⟨rfl, rfl⟩ := Prod.mk.inj (Option.some.inj e)
    have hleaf : ∀ path m a m' t, bipart D cutoff part (n / 2) path m a = some (m', t) → addrs t = [] := by
      intro path m a m' t h
      cases hg : m.get a with
      | none => rw [bipart, hg] at h; exact absurd h (by simp)
      | some ids =>
        rw [bipart, hg] at h
        dsimp only at h
        rw [if_neg (by omega)] at h
        obtain ⟨rfl, rfl⟩ := Prod.mk.inj (Option.some.inj h)
        simp [addrs]
    have hb' : b ∈ addrs (lt.setChk (some (.accurate (Checker.partIds D ids (fun i => (part [] i).toNat) 0) a))) ∨
        b ∈ addrs (rt.setChk (some (.accurate (Checker.partIds D ids (fun i => (part [] i).toNat) 1) a))) := by
      simpa [addrs, addrsAll] using hb
    rcases hb' with hb | hb
    · rcases addrs_setChk _ _ _ _ hb with hb | hb
      · exact hb
      · rw [hleaf _ _ _ _ _ e3] at hb; exact absurd hb (by simp)
    · rcases addrs_setChk _ _ _ _ hb with hb | hb
      · exact hb
      · rw [hleaf _ _ _ _ _ e4] at hb; exact absurd hb (by simp)
  · obtain ⟨rfl, rfl⟩ := Prod.mk.inj (Option.some.inj e)
    exact absurd hb (by simp [addrs])

/-- **C132 (violated).** With four or more parts, whenever the ids and the first part are large enough to be split, the checkers of the first two
grandchildren of the root refer to a set that has been destroyed before the tree is returned; they answer no query that meets a cell of their grid. -/
theorem C132_bipart_violated (D cutoff : Nat) (part : List Bool → Nat → Bool) (n : Nat) (m : Mem) (a : Nat) (ids : Finset Nat) (ha : m.get a = some ids)
    (hn : 4 ≤ n) (hc : cutoff < ids.card) (hl : cutoff < (Checker.partIds D ids (fun i => (part [] i).toNat) 0).card) :
    ∃ m' rt c b t u F G, bipart D cutoff part n [] m a = some (m', .node none [.node c [t, u], rt]) ∧
      t.chk = some (.accurate F b) ∧ u.chk = some (.accurate G b) ∧ m'.get b = none ∧
      ∀ {K : Type} [Field K] [LinearOrder K] [FloorRing K] (w : K) (T : Node D K) (inCell : Grid.Index D → Option (List Nat)) (inSph : Nat → Bool)
        (s : Sphere D K), T.cells w s ≠ [] → intersects m' b w T inCell inSph s = none := by
  obtain ⟨m', T, e, _, g, d⟩ := bipart_mem D cutoff part n [] m a ids ha
  have e' := e
  rw [bipart, ha] at e
  dsimp only at e
  rw [if_pos ⟨by omega, hc⟩] at e
  obtain ⟨⟨m3, lt⟩, e3, e⟩ := Option.bind_eq_some_iff.mp e
  dsimp only at e
  obtain ⟨⟨m4, rt⟩, e4, e⟩ := Option.bind_eq_some_iff.mp e
  obtain ⟨hm', rfl⟩ := Prod.mk.inj (Option.some.inj e)
  have hb : m'.get m.cells.length = none := d _ le_rfl
  have hget : ((m.new (Checker.partIds D ids (fun i => (part [] i).toNat) 0)).1.new (Checker.partIds D ids (fun i => (part [] i).toNat) 1)).1.get
      m.cells.length = some (Checker.partIds D ids (fun i => (part [] i).toNat) 0) := by simp [Mem.new, Mem.get]
  have e3' := e3
  rw [bipart] at e3
  simp only [show (m.new (Checker.partIds D ids (fun i => (part [] i).toNat) 0)).2 = m.cells.length from rfl, hget] at e3
  rw [if_pos ⟨by omega, hl⟩] at e3
  obtain ⟨⟨m5, t⟩, e5, e3⟩ := Option.bind_eq_some_iff.mp e3
  dsimp only at e3
  obtain ⟨⟨m6, u⟩, e6, e3⟩ := Option.bind_eq_some_iff.mp e3
  obtain ⟨_, rfl⟩ := Prod.mk.inj (Option.some.inj e3)
  have hchk : ∀ (t : PTree Ref) c, (t.setChk c).chk = c := fun t c => by cases t <;> rfl
  refine ⟨m', _, _, m.cells.length, _, _, _, _, e', hchk _ _, hchk _ _, hb, ?_⟩
  intro K _ _ _ w T inCell inSph s hs
  rw [intersects, if_neg (by simpa using hs), hb]

/-- Eight points in the plane and four parts, with at least four ids (four of them infinite) to be split. -/
example : ∃ m' rt c t u F b, bipart 2 4 (fun path i => if path = [] then i % 2 == 1 else i % 4 ≥ 2) 4 [] ⟨[some {1, 2, 3, 4, 5, 6, 7, 8}]⟩ 0 =
    some (m', .node none [.node c [t, u], rt]) ∧ t.chk = some (.accurate F b) ∧ m'.get b = none := by
  obtain ⟨m', rt, c, b, t, u, F, G, h1, h2, _, h3, _⟩ := C132_bipart_violated 2 4 (fun path i => if path = [] then i % 2 == 1 else i % 4 ≥ 2) 4
    ⟨[some {1, 2, 3, 4, 5, 6, 7, 8}]⟩ 0 _ rfl (by omega) (by decide) (by decide +kernel)
  exact ⟨m', rt, c, t, u, F, b, h1, h2, h3⟩

end Life
end Verif
