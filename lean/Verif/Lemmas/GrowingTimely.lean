import Verif.Lemmas.GrowingTables

/-!
# Invariant of timely executions of the growing set
-/
namespace Verif
namespace Growing
open Conc
open ConcSet (Passed)
open ConcMap (upd_cases append_singleton_split)
open Migrate (remL insideL carries)

variable {n : Nat}

/-- A thread counted by `helperThreads`. -/
def inLoc : Loc → Bool
  | .mig _ _ m _ => insideL m
  | _ => false

def inTh : Option (Active Loc Op) → Bool
  | none => false
  | some A => inLoc A.loc

/-- A thread that still has to copy key `k` from slot `j` of the current table. -/
def Busy (s : Shared) (j k : Nat) : Loc → Prop
  | .mig h _ m _ => (∃ le, s.hs[h]? = some (le, s.er)) ∧ (remL j m = true ∨ carries k j m)
  | _ => False

/-- A thread that replaces the current table. -/
def Grows (s : Shared) : Loc → Prop
  | .g2 h _ _ => ∃ le, s.hs[h]? = some (le, s.er)
  | .mig h _ _ _ => ∃ le, s.hs[h]? = some (le, s.er)
  | .g8 h _ _ => ∃ le, s.hs[h]? = some (le, s.er)
  | .g9 h _ _ => ∃ le, s.hs[h]? = some (le, s.er)
  | _ => False

/-- `insert(k)` had returned when `t` started its last operation. -/
def Before (hist : List (Ev n Op ConcSet.SetRet)) (t : Fin n) (k : Nat) : Prop :=
  ∃ h1 h2 op, hist = h1 ++ Ev.inv t op :: h2 ∧ (∀ op', Ev.inv t op' ∉ h2) ∧ Acked h1 k

/-- The result of an operation on a key that is present. -/
def right : Op → ConcSet.SetRet
  | .insert _ _ => .bool false
  | .contains _ _ => .bool true

structure CI (a : Nat) (c : Config n Shared Loc Op ConcSet.SetRet) : Prop where
  g : GI a c.sh
  ex : Exclusive c
  lh : ∀ t A, c.th t = some A → locH A.loc = A.op.handle
  lk : ∀ t A, c.th t = some A → locKey A.loc = opKey A.op ∧ A.op.key ≠ 0
  sy : ∀ (h le lt : Nat), c.sh.hs[h]? = some (le, lt) →
    (∀ t A, c.th t = some A → A.op.handle = h → sync A.loc = true) → le = lt
  li : ∀ t A, c.th t = some A → LI a c.sh A.loc
  bus : ∀ j k, j < cp c.sh c.sh.er → (ar c.sh c.sh.er)[j]? = some k → k ≠ 0 →
    k ∈ ar c.sh (c.sh.er + 1) ∨ ∃ t A, c.th t = some A ∧ Busy c.sh j k A.loc
  hel : c.sh.helpers = cnt inTh c.th
  gro : c.sh.tabs.length = c.sh.er + 2 → ∃ t A, c.th t = some A ∧ Grows c.sh A.loc
  ack : ∀ k, Acked c.hist k → k ≠ 0 ∧ k ∈ ar c.sh c.sh.er
  ls : ∀ t A, c.th t = some A → Before c.hist t A.op.key → LS A.op.key c.sh A.loc
  ret : ∀ t op r h1 h2 h3, c.hist = h1 ++ Ev.inv t op :: (h2 ++ Ev.res t op r :: h3) →
    (∀ op', Ev.inv t op' ∉ h2) → Acked h1 op.key → r = right op

/-- The table of an active thread is at most the current one. -/
theorem CI.sync_le {a : Nat} {c : Config n Shared Loc Op ConcSet.SetRet} (h : CI a c) {t : Fin n}
    {A : Active Loc Op} (hA : c.th t = some A) (hs : sync A.loc = true) {le lt : Nat}
    (hh : c.sh.hs[locH A.loc]? = some (le, lt)) : le = lt ∧ lt ≤ c.sh.er := by
  have h1 : le = lt := by
    refine h.sy _ le lt hh (fun u B hu hB => ?_)
    rw [h.lh t A hA] at hB
    have := h.ex u t B A hu hA hB
    subst this
    rw [hA] at hu
    injection hu with hu
    subst hu
    exact hs
  have := (h.g.hnd _ le lt hh).1
  exact ⟨h1, by omega⟩

theorem upd {a : Nat} {c : Config n Shared Loc Op ConcSet.SetRet} (h : CI a c) (t : Fin n) (H : Nat)
    {s' : Shared} {x : Option (Active Loc Op)} {hist' : List (Ev n Op ConcSet.SetRet)}
    (hT : ∀ A, c.th t = some A → A.op.handle = H)
    (hX : ∀ A, x = some A → A.op.handle = H ∧ locH A.loc = H ∧ locKey A.loc = opKey A.op ∧
      A.op.key ≠ 0)
    (hact : (∃ A, c.th t = some A) ∨ ∃ A, x = some A)
    (hex : Exclusive ({ sh := s', th := Function.update c.th t x, hist := hist' } :
      Config n Shared Loc Op ConcSet.SetRet))
    (he : Ext c.sh s') (hg : GI a s')
    (hh : ∀ y, y ≠ H → s'.hs[y]? = c.sh.hs[y]?)
    (hsy : ∀ le lt, s'.hs[H]? = some (le, lt) → (∀ A, x = some A → sync A.loc = true) → le = lt)
    (hli : ∀ A, x = some A → LI a s' A.loc)
    (hbus : ∀ j k, j < cp s' s'.er → (ar s' s'.er)[j]? = some k → k ≠ 0 →
      k ∈ ar s' (s'.er + 1) ∨ ∃ u A, Function.update c.th t x u = some A ∧ Busy s' j k A.loc)
    (hhel : s'.helpers = cnt inTh (Function.update c.th t x))
    (hgro : s'.tabs.length = s'.er + 2 →
      ∃ u A, Function.update c.th t x u = some A ∧ Grows s' A.loc)
    (hack : ∀ k, Acked hist' k → Acked c.hist k ∨ (k ≠ 0 ∧ k ∈ ar s' s'.er))
    (hbef : ∀ u k, u ≠ t → Before hist' u k → Before c.hist u k)
    (hls : ∀ A, x = some A → Before hist' t A.op.key → LS A.op.key s' A.loc)
    (hret : ∀ u op r h1 h2 h3, hist' = h1 ++ Ev.inv u op :: (h2 ++ Ev.res u op r :: h3) →
      (∀ op', Ev.inv u op' ∉ h2) → Acked h1 op.key → r = right op) :
    CI a { sh := s', th := Function.update c.th t x, hist := hist' } := by
  have hother : ∀ u B, u ≠ t → c.th u = some B → B.op.handle ≠ H := by
    intro u B hut hu hB
    rcases hact with ⟨A, hA⟩ | ⟨A, hA⟩
    · exact hut (h.ex u t B A hu hA (by rw [hB, hT A hA]))
    · exact hut (hex u t B A (by simp only [Function.update_of_ne hut]; exact hu)
        (by simp only [Function.update_self]; exact hA) (by rw [hB, (hX A hA).1]))
  refine ⟨hg, hex, ?_, ?_, ?_, ?_, hbus, hhel, hgro, ?_, ?_, hret⟩
  · intro u B hu
    replace hu := upd_cases hu
    rcases hu with ⟨rfl, hu⟩ | ⟨hut, hu⟩
    · rw [(hX B hu).2.1, (hX B hu).1]
    · exact h.lh u B hu
  · intro u B hu
    replace hu := upd_cases hu
    rcases hu with ⟨rfl, hu⟩ | ⟨hut, hu⟩
    · exact (hX B hu).2.2
    · exact h.lk u B hu
  · intro y le lt hy hall
    by_cases hyH : y = H
    · subst hyH
      exact hsy le lt hy (fun A hA => hall t A (by simp only [Function.update_self]; exact hA)
        (hX A hA).1)
    · simp only at hy
      rw [hh y hyH] at hy
      refine h.sy y le lt hy (fun u B hu hB => ?_)
      have hut : u ≠ t := by
        rintro rfl
        exact hyH (by rw [← hB, hT B hu])
      exact hall u B (by simp only [Function.update_of_ne hut]; exact hu) hB
  · intro u B hu
    replace hu := upd_cases hu
    rcases hu with ⟨rfl, hu⟩ | ⟨hut, hu⟩
    · exact hli B hu
    · have hH := hother u B hut hu
      rw [← h.lh u B hu] at hH
      exact (h.li u B hu).mono h.g he (hh _ hH) (fun le lt hx hs => (h.sync_le hu hs hx).2)
  · intro k hk
    rcases hack k hk with h1 | h1
    · obtain ⟨h2, h3⟩ := h.ack k h1
      exact ⟨h2, hg.up he.er h2 (he.mem h2 h3)⟩
    · exact h1
  · intro u B hu hB
    replace hu := upd_cases hu
    rcases hu with ⟨rfl, hu⟩ | ⟨hut, hu⟩
    · exact hls B hu hB
    · have hH := hother u B hut hu
      rw [← h.lh u B hu] at hH
      exact (h.ls u B hu (hbef u _ hut hB)).mono (h.lk u B hu).2 he (hh _ hH)

/-- The copying obligations after a step that does not change the read epoch. -/
theorem bus_same {a : Nat} {c : Config n Shared Loc Op ConcSet.SetRet} (h : CI a c) {t : Fin n}
    {A : Active Loc Op} (hA : c.th t = some A) {s' : Shared} {x : Option (Active Loc Op)}
    (he : Ext c.sh s') (her : s'.er = c.sh.er)
    (hh : ∀ y, y ≠ locH A.loc → s'.hs[y]? = c.sh.hs[y]?)
    (hb : ∀ j k, k ≠ 0 → (ar c.sh c.sh.er)[j]? = some k → Busy c.sh j k A.loc →
      k ∈ ar s' (c.sh.er + 1) ∨ ∃ B, x = some B ∧ Busy s' j k B.loc)
    (hn : ∀ j k, cp c.sh c.sh.er ≤ j → j < cp s' c.sh.er → (ar s' c.sh.er)[j]? = some k → k ≠ 0 →
      ∃ B, x = some B ∧ Busy s' j k B.loc) (j k : Nat) (hj : j < cp s' s'.er)
    (hjk : (ar s' s'.er)[j]? = some k) (hk : k ≠ 0) :
    k ∈ ar s' (s'.er + 1) ∨ ∃ u A, Function.update c.th t x u = some A ∧ Busy s' j k A.loc := by
  rw [her] at hj hjk ⊢
  have hown : (∃ B, x = some B ∧ Busy s' j k B.loc) →
      ∃ u A, Function.update c.th t x u = some A ∧ Busy s' j k A.loc :=
    fun ⟨B, hx, hB⟩ => ⟨t, B, by rw [Function.update_self]; exact hx, hB⟩
  rcases Nat.lt_or_ge j (cp c.sh c.sh.er) with h1 | h1
  · rw [he.frz j h1] at hjk
    rcases h.bus j k h1 hjk hk with h2 | ⟨u, B, hu, hB⟩
    · exact Or.inl (he.mem hk h2)
    · by_cases hut : u = t
      · subst hut
        rw [hA] at hu
        injection hu with hu
        subst hu
        rcases hb j k hk hjk hB with h3 | h3
        · exact Or.inl h3
        · exact Or.inr (hown h3)
      · refine Or.inr ⟨u, B, by rw [Function.update_of_ne hut]; exact hu, ?_⟩
        have hH : locH B.loc ≠ locH A.loc := by
          rw [h.lh u B hu, h.lh t A hA]
          exact fun hx => hut (h.ex u t B A hu hA hx)
        have hhs := hh _ hH
        cases hl : B.loc with
        | mig y w m cc =>
          rw [hl] at hB hhs
          simp only [Busy, locH] at hB hhs ⊢
          rw [hhs, her]
          exact hB
        | _ => rw [hl] at hB; exact hB.elim
  · exact Or.inr (hown (hn j k h1 hj hjk hk))

theorem gro_same {a : Nat} {c : Config n Shared Loc Op ConcSet.SetRet} (h : CI a c) {t : Fin n}
    {A : Active Loc Op} (hA : c.th t = some A) {s' : Shared} {x : Option (Active Loc Op)}
    (her : s'.er = c.sh.er) (hlen : s'.tabs.length = c.sh.tabs.length)
    (hh : ∀ y, y ≠ locH A.loc → s'.hs[y]? = c.sh.hs[y]?)
    (hb : Grows c.sh A.loc → ∃ B, x = some B ∧ Grows s' B.loc) (hx : s'.tabs.length = s'.er + 2) :
    ∃ u A, Function.update c.th t x u = some A ∧ Grows s' A.loc := by
  rw [her, hlen] at hx
  obtain ⟨u, B, hu, hB⟩ := h.gro hx
  by_cases hut : u = t
  · subst hut
    rw [hA] at hu
    injection hu with hu
    subst hu
    obtain ⟨B', hx', hB'⟩ := hb hB
    exact ⟨u, B', by rw [Function.update_self]; exact hx', hB'⟩
  · refine ⟨u, B, by rw [Function.update_of_ne hut]; exact hu, ?_⟩
    have hH : locH B.loc ≠ locH A.loc := by
      rw [h.lh u B hu, h.lh t A hA]
      exact fun hx => hut (h.ex u t B A hu hA hx)
    have hhs := hh _ hH
    cases hl : B.loc <;> rw [hl] at hB hhs <;> simp only [Grows, locH] at hB hhs ⊢ <;>
      first | exact hB.elim | (rw [hhs, her]; exact hB)

theorem handle_of {A : Active Loc Op} {H : Nat} (h : locH A.loc = A.op.handle) (hl : locH A.loc = H) :
    A.op.handle = H := by rw [← h, hl]

/-- An internal step that keeps the read epoch and the number of tables. -/
theorem upd_int {a : Nat} {c : Config n Shared Loc Op ConcSet.SetRet} (h : CI a c) {t : Fin n}
    {A : Active Loc Op} (hA : c.th t = some A) {s' : Shared} {l' : Loc}
    (hex : Exclusive ({ c with sh := s', th := Function.update c.th t (some ⟨A.op, l', A.steps + 1⟩) } :
      Config n Shared Loc Op ConcSet.SetRet))
    (hH : locH l' = locH A.loc) (hK : locKey l' = locKey A.loc)
    (he : Ext c.sh s') (her : s'.er = c.sh.er) (hlen : s'.tabs.length = c.sh.tabs.length) (hg : GI a s')
    (hh : ∀ y, y ≠ locH A.loc → s'.hs[y]? = c.sh.hs[y]?)
    (hsy : ∀ le lt, s'.hs[locH A.loc]? = some (le, lt) → sync l' = true → le = lt)
    (hli : LI a s' l')
    (hb : ∀ j k, k ≠ 0 → (ar c.sh c.sh.er)[j]? = some k → Busy c.sh j k A.loc →
      k ∈ ar s' (c.sh.er + 1) ∨ Busy s' j k l')
    (hn : ∀ j k, cp c.sh c.sh.er ≤ j → j < cp s' c.sh.er → (ar s' c.sh.er)[j]? = some k → k ≠ 0 →
      Busy s' j k l')
    (hhel : s'.helpers = cnt inTh (Function.update c.th t (some ⟨A.op, l', A.steps + 1⟩)))
    (hgro : Grows c.sh A.loc → Grows s' l')
    (hls : ∀ k, k = A.op.key → LS k c.sh A.loc → (k ∈ ar c.sh c.sh.er) → LS k s' l') :
    CI a { c with sh := s', th := Function.update c.th t (some ⟨A.op, l', A.steps + 1⟩) } := by
  have hAh := h.lh t A hA
  refine upd h t (locH A.loc) (fun B hB => ?_) (fun B hB => ?_) (Or.inl ⟨A, hA⟩) hex he hg hh
    (fun le lt h1 h2 => hsy le lt h1 (h2 _ rfl)) (fun B hB => ?_)
    (bus_same h hA he her hh (fun j k h1 h2 h3 => ?_) (fun j k h1 h2 h3 h4 => ?_)) hhel
    (gro_same h hA her hlen hh (fun hx => ⟨_, rfl, hgro hx⟩)) (fun k hk => Or.inl hk)
    (fun u k _ hx => hx) (fun B hB hx => ?_) h.ret
  · rw [hA] at hB
    injection hB with hB
    subst hB
    exact hAh.symm
  · injection hB with hB
    subst hB
    exact ⟨hAh.symm, hH, by rw [hK]; exact (h.lk t A hA).1, (h.lk t A hA).2⟩
  · injection hB with hB
    subst hB
    exact hli
  · rcases hb j k h1 h2 h3 with h4 | h4
    · exact Or.inl h4
    · exact Or.inr ⟨_, rfl, h4⟩
  · exact ⟨_, rfl, hn j k h1 h2 h3 h4⟩
  · injection hB with hB
    subst hB
    refine hls _ rfl (h.ls t A hA hx) ?_
    obtain ⟨g1, g2, op, g3, g4, g5⟩ := hx
    refine (h.ack _ ?_).2
    obtain ⟨u, i, b, hu⟩ := g5
    exact ⟨u, i, b, by rw [g3]; exact List.mem_append.2 (Or.inl hu)⟩

/-- An internal step that leaves the tables alone. -/
theorem upd_quiet {a : Nat} {c : Config n Shared Loc Op ConcSet.SetRet} (h : CI a c) {t : Fin n}
    {A : Active Loc Op} (hA : c.th t = some A) {s' : Shared} {l' : Loc}
    (hex : Exclusive ({ c with sh := s', th := Function.update c.th t (some ⟨A.op, l', A.steps + 1⟩) } :
      Config n Shared Loc Op ConcSet.SetRet))
    (hH : locH l' = locH A.loc) (hK : locKey l' = locKey A.loc)
    (hq : Quiet c.sh s')
    (hh : ∀ y, y ≠ locH A.loc → s'.hs[y]? = c.sh.hs[y]?)
    (hnd : ∀ le lt, s'.hs[locH A.loc]? = some (le, lt) → (le ≤ c.sh.er ∧ lt ≤ s'.tr) ∧
      (sync l' = true → le = lt))
    (hli : LI a s' l')
    (hb : ∀ j k, k ≠ 0 → (ar c.sh c.sh.er)[j]? = some k → Busy c.sh j k A.loc →
      k ∈ ar c.sh (c.sh.er + 1) ∨ Busy s' j k l')
    (hhel : s'.helpers = cnt inTh (Function.update c.th t (some ⟨A.op, l', A.steps + 1⟩)))
    (hgro : Grows c.sh A.loc → Grows s' l')
    (hls : ∀ k, k = A.op.key → LS k c.sh A.loc → (k ∈ ar c.sh c.sh.er) → LS k s' l') :
    CI a { c with sh := s', th := Function.update c.th t (some ⟨A.op, l', A.steps + 1⟩) } := by
  refine upd_int h hA hex hH hK hq.ext hq.er hq.len (hq.gi h.g (fun y le lt hy => ?_)) hh
    (fun le lt hx => (hnd le lt hx).2) hli (fun j k h1 h2 h3 => ?_) (fun j k h1 h2 => ?_) hhel hgro hls
  · by_cases hyH : y = locH A.loc
    · subst hyH
      rw [hq.er]
      exact (hnd le lt hy).1
    · rw [hh y hyH] at hy
      have := h.g.hnd y le lt hy
      have := hq.tr
      rw [hq.er]
      omega
  · rw [hq.ar]
    exact hb j k h1 h2 h3
  · rw [hq.cp] at h2
    omega

theorem before_append {h : List (Ev n Op ConcSet.SetRet)} {e : Ev n Op ConcSet.SetRet} {u : Fin n}
    {k : Nat} (he : ∀ op, e ≠ .inv u op) (hb : Before (h ++ [e]) u k) : Before h u k := by
  obtain ⟨h1, h2, op, g1, g2, g3⟩ := hb
  rcases append_singleton_split g1 with ⟨rfl, hx⟩ | ⟨h2', rfl⟩
  · exact absurd hx.symm (he op)
  · refine ⟨h1, h2', op, rfl, fun op' hx => g2 op' ?_, g3⟩
    have : h2 = h2' ++ [e] := by
      rw [List.append_assoc, List.cons_append] at g1
      have := List.append_cancel_left g1
      simpa using this.symm
    rw [this]
    exact List.mem_append.2 (Or.inl hx)

end Growing
end Verif
