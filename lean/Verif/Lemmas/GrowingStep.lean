import Verif.Lemmas.GrowingTimely

/-!
# The steps of the growing set preserve the invariant of timely executions
-/
namespace Verif
namespace Growing
open Conc
open ConcSet (Passed)
open ConcMap (upd_cases append_singleton_split)
open Migrate (remL insideL carries)

variable {n : Nat}

theorem opKey_snd (op : Op) : (opKey op).2 = op.key := by cases op <;> rfl

theorem CI.key_eq {a : Nat} {c : Config n Shared Loc Op ConcSet.SetRet} (h : CI a c) {t : Fin n}
    {A : Active Loc Op} (hA : c.th t = some A) : (locKey A.loc).2 = A.op.key := by
  rw [(h.lk t A hA).1, opKey_snd]

theorem CI.key_ne {a : Nat} {c : Config n Shared Loc Op ConcSet.SetRet} (h : CI a c) {t : Fin n}
    {A : Active Loc Op} (hA : c.th t = some A) : (locKey A.loc).2 ≠ 0 := by
  rw [h.key_eq hA]; exact (h.lk t A hA).2

theorem hel_same {a : Nat} {c : Config n Shared Loc Op ConcSet.SetRet} (h : CI a c) {t : Fin n}
    {A : Active Loc Op} (hA : c.th t = some A) {l' : Loc} (hl : inLoc l' = inLoc A.loc) :
    c.sh.helpers = cnt inTh (Function.update c.th t (some ⟨A.op, l', A.steps + 1⟩)) := by
  rw [cnt_update_same (by rw [hA]; exact hl), h.hel]

section
variable {a : Nat} {c : Config n Shared Loc Op ConcSet.SetRet} {t : Fin n} {A : Active Loc Op}
  {s' : Shared} {l' : Loc}

/-- What every internal step has to show. -/
def Goal (a : Nat) (c : Config n Shared Loc Op ConcSet.SetRet) (t : Fin n) (A : Active Loc Op)
    (s' : Shared) (l' : Loc) : Prop :=
  Exclusive ({ c with sh := s', th := Function.update c.th t (some ⟨A.op, l', A.steps + 1⟩) } :
      Config n Shared Loc Op ConcSet.SetRet) →
    CI a { c with sh := s', th := Function.update c.th t (some ⟨A.op, l', A.steps + 1⟩) }

theorem int_ins0 (h : CI a c) (hA : c.th t = some A) {y k : Nat} (hl : A.loc = .ins0 y k)
    (hst : step c.sh (.ins0 y k) = some (s', .inl l')) : Goal a c t A s' l' := by
  intro hex
  have hk := h.key_ne hA
  rw [hl] at hk
  simp only [step] at hst
  split at hst
  · cases hst
  · rename_i le lt hy
    have hsl := h.sync_le hA (by rw [hl]; rfl) (by rw [hl]; exact hy)
    split at hst
    · simp only [Option.some.injEq, Prod.mk.injEq, Sum.inl.injEq] at hst
      obtain ⟨rfl, rfl⟩ := hst
      exact upd_quiet h hA hex (by rw [hl]; rfl) (by rw [hl]; rfl) (Quiet.refl h.g) (fun _ _ => rfl)
        (fun le lt hx => ⟨h.g.hnd _ le lt hx, by simp [sync]⟩) trivial
        (by rw [hl]; exact fun _ _ _ _ hx => hx.elim) (hel_same h hA (by rw [hl]; rfl))
        (by rw [hl]; exact fun hx => hx.elim) (fun _ _ _ _ => trivial)
    · rename_i hle
      simp only [Option.some.injEq, Prod.mk.injEq, Sum.inl.injEq] at hst
      obtain ⟨rfl, rfl⟩ := hst
      refine upd_quiet h hA hex (by rw [hl]; rfl) (by rw [hl]; rfl) (Quiet.refl h.g) (fun _ _ => rfl)
        (fun le lt hx => ⟨h.g.hnd _ le lt hx, fun _ => (h.sync_le hA (by rw [hl]; rfl) hx).1⟩)
        (fun le lt hx => ⟨.insert k, 0, rfl, hk, rfl⟩)
        (by rw [hl]; exact fun _ _ _ _ hx => hx.elim) (hel_same h hA (by rw [hl]; rfl))
        (by rw [hl]; exact fun hx => hx.elim) (fun k' _ _ hm => ⟨fun le' lt' hx => ?_, by simp⟩)
      rw [hy] at hx
      simp only [Option.some.injEq, Prod.mk.injEq] at hx
      have := h.g.er_ew
      have : lt' = c.sh.er := by omega
      rw [this]
      exact hm

theorem int_con0 (h : CI a c) (hA : c.th t = some A) {y k : Nat} (hl : A.loc = .con0 y k)
    (hst : step c.sh (.con0 y k) = some (s', .inl l')) : Goal a c t A s' l' := by
  intro hex
  have hk := h.key_ne hA
  rw [hl] at hk
  simp only [step] at hst
  split at hst
  · cases hst
  · rename_i le lt hy
    have hsl := h.sync_le hA (by rw [hl]; rfl) (by rw [hl]; exact hy)
    split at hst
    · simp only [Option.some.injEq, Prod.mk.injEq, Sum.inl.injEq] at hst
      obtain ⟨rfl, rfl⟩ := hst
      exact upd_quiet h hA hex (by rw [hl]; rfl) (by rw [hl]; rfl) (Quiet.refl h.g) (fun _ _ => rfl)
        (fun le lt hx => ⟨h.g.hnd _ le lt hx, by simp [sync]⟩) trivial
        (by rw [hl]; exact fun _ _ _ _ hx => hx.elim) (hel_same h hA (by rw [hl]; rfl))
        (by rw [hl]; exact fun hx => hx.elim) (fun _ _ _ _ => trivial)
    · rename_i hle
      simp only [Option.some.injEq, Prod.mk.injEq, Sum.inl.injEq] at hst
      obtain ⟨rfl, rfl⟩ := hst
      refine upd_quiet h hA hex (by rw [hl]; rfl) (by rw [hl]; rfl) (Quiet.refl h.g) (fun _ _ => rfl)
        (fun le lt hx => ⟨h.g.hnd _ le lt hx, fun _ => (h.sync_le hA (by rw [hl]; rfl) hx).1⟩)
        (fun le lt hx => ⟨.contains k, 0, rfl, hk, 0, by rw [h.g.mult]; rfl,
          fun e he => absurd he (by omega), Nat.le_refl _⟩)
        (by rw [hl]; exact fun _ _ _ _ hx => hx.elim) (hel_same h hA (by rw [hl]; rfl))
        (by rw [hl]; exact fun hx => hx.elim) (fun k' _ _ hm => ⟨fun le' lt' hx => ?_, by simp⟩)
      rw [hy] at hx
      simp only [Option.some.injEq, Prod.mk.injEq] at hx
      have : lt' = c.sh.er := by omega
      rw [this]
      exact hm

theorem getElem?_set_self' {α : Type} {l : List α} {i : Nat} {x y : α} (h : (l.set i x)[i]? = some y) :
    y = x := by
  rw [List.getElem?_set] at h
  simp only [if_true] at h
  split at h
  · injection h with h; exact h.symm
  · cases h

theorem quiet_hs (hg : GI a c.sh) (hs : List (Nat × Nat)) : Quiet c.sh { c.sh with hs := hs } :=
  ⟨rfl, fun _ => rfl, fun _ => rfl, fun _ => rfl, rfl, Nat.le_refl _, hg.tr_lt, Nat.le_refl _⟩

theorem int_gt1 (h : CI a c) (hA : c.th t = some A) {y : Nat} {cc : Cont} (hl : A.loc = .gt1 y cc)
    (hst : step c.sh (.gt1 y cc) = some (s', .inl l')) : Goal a c t A s' l' := by
  intro hex
  simp only [step] at hst
  split at hst
  · cases hst
  · rename_i le lt hy
    simp only [Option.some.injEq, Prod.mk.injEq, Sum.inl.injEq] at hst
    obtain ⟨rfl, rfl⟩ := hst
    have hlt := (h.g.hnd _ _ _ hy).2
    refine upd_quiet h hA hex (by rw [hl]; rfl) (by rw [hl]; rfl) (quiet_hs h.g _)
      (fun z hz => ?_) (fun le' lt' hx => ?_) trivial
      (by rw [hl]; exact fun _ _ _ _ hx => hx.elim) (hel_same h hA (by rw [hl]; rfl))
      (by rw [hl]; exact fun hx => hx.elim) (fun k _ _ hm le' lt' hx => ?_)
    · rw [hl] at hz
      exact List.getElem?_set_ne (fun hx => hz hx.symm)
    · rw [hl] at hx
      have := getElem?_set_self' hx
      simp only [Prod.mk.injEq] at this
      exact ⟨⟨by omega, by simp only; omega⟩, by simp [sync]⟩
    · have := getElem?_set_self' hx
      simp only [Prod.mk.injEq] at this
      rw [this.1]
      exact hm

theorem int_gt2 (h : CI a c) (hA : c.th t = some A) {y : Nat} {cc : Cont} (hl : A.loc = .gt2 y cc)
    (hst : step c.sh (.gt2 y cc) = some (s', .inl l')) : Goal a c t A s' l' := by
  intro hex
  have hk := h.key_ne hA
  have hke := h.key_eq hA
  rw [hl] at hk hke
  simp only [step] at hst
  split at hst
  · cases hst
  · rename_i le lt hy
    simp only [Option.some.injEq, Prod.mk.injEq] at hst
    obtain ⟨rfl, hst⟩ := hst
    have hle := (h.g.hnd _ _ _ hy).1
    have hlast : ∀ l'', l'' = l' → locH l'' = y → locKey l'' = contKey cc →
        (sync l'' = true → le = c.sh.tr) → inLoc l'' = false →
        LI a { c.sh with hs := c.sh.hs.set y (le, c.sh.tr) } l'' →
        (∀ k, k = A.op.key → k ∈ ar c.sh le →
          LS k { c.sh with hs := c.sh.hs.set y (le, c.sh.tr) } l'') →
        CI a { sh := { c.sh with hs := c.sh.hs.set y (le, c.sh.tr) },
               th := Function.update c.th t (some ⟨A.op, l', A.steps + 1⟩), hist := c.hist } := by
      rintro _ rfl h1 h2 h3 h4 h5 h6
      refine upd_quiet h hA hex (by rw [hl]; exact h1) (by rw [hl]; exact h2) (quiet_hs h.g _)
        (fun z hz => ?_) (fun le' lt' hx => ?_) h5
        (by rw [hl]; exact fun _ _ _ _ hx => hx.elim) (hel_same h hA (by rw [hl]; exact h4))
        (by rw [hl]; exact fun hx => hx.elim) (fun k hk hs _ => h6 k hk ?_)
      · rw [hl] at hz
        exact List.getElem?_set_ne (fun hx => hz hx.symm)
      · rw [hl] at hx
        have := getElem?_set_self' hx
        simp only [Prod.mk.injEq] at this
        refine ⟨⟨by omega, by simp only; omega⟩, fun hx => ?_⟩
        have := h3 hx
        omega
      · rw [hl] at hs
        exact hs le lt hy
    have hget : ∀ le' lt', (c.sh.hs.set y (le, c.sh.tr))[y]? = some (le', lt') →
        lt' = c.sh.tr := by
      intro le' lt' hx
      have := getElem?_set_self' hx
      simp only [Prod.mk.injEq] at this
      exact this.2
    split at hst
    · injection hst with hst
      exact hlast _ hst rfl rfl (by simp [sync]) rfl trivial (fun _ _ _ => trivial)
    · rename_i heq
      simp only [ne_eq, not_not] at heq
      injection hst with hst
      have hchk : ∀ k, contKey cc = (true, k) → .tab y (.check k) = l' →
        CI a { sh := { c.sh with hs := c.sh.hs.set y (le, c.sh.tr) },
               th := Function.update c.th t (some ⟨A.op, l', A.steps + 1⟩), hist := c.hist } := by
        intro k hck hx
        refine hlast _ hx rfl (by rw [hck]; rfl) (fun _ => heq.symm) rfl
          (fun le' lt' _ => ⟨.insert k, 0, rfl, ?_, rfl⟩) (fun k' _ hm => ⟨fun le' lt' hx => ?_, by simp⟩)
        · simp only [locKey, hck] at hk
          exact hk
        · rw [hget le' lt' hx, heq]
          exact hm
      cases cc with
      | check k te =>
        simp only [afterGet] at hst
        split at hst
        · exact hlast _ hst rfl rfl (fun _ => heq.symm) rfl trivial (fun _ _ _ => trivial)
        · exact hchk k rfl hst
      | ins k => exact hchk k rfl hst
      | restart k => exact hlast _ hst rfl rfl (fun _ => heq.symm) rfl trivial (fun _ _ _ => trivial)
      | con k =>
        refine hlast _ hst rfl rfl (fun _ => heq.symm) rfl
          (fun le lt hx => ⟨.contains k, 0, rfl, hk, 0, by rw [h.g.mult]; rfl,
          fun e he => absurd he (by omega), Nat.le_refl _⟩) (fun k' _ hm => ⟨fun le' lt' hx => ?_, by simp⟩)
        rw [hget le' lt' hx, heq]
        exact hm

theorem int_g2 (h : CI a c) (hA : c.th t = some A) {y w : Nat} {cc : Cont} (hl : A.loc = .g2 y w cc)
    (hst : step c.sh (.g2 y w cc) = some (s', .inl l')) : Goal a c t A s' l' := by
  intro hex
  simp only [step] at hst
  split at hst
  · cases hst
  · rename_i le lt hy
    simp only [Option.some.injEq, Prod.mk.injEq, Sum.inl.injEq] at hst
    obtain ⟨rfl, rfl⟩ := hst
    have hli := h.li t A hA
    rw [hl] at hli
    have hW := hli le lt hy
    have hsl := h.sync_le hA (by rw [hl]; rfl) (by rw [hl]; exact hy)
    have hew := h.g.er_ew
    have hW1 := hW.1
    refine upd_quiet h hA hex (by rw [hl]; rfl) (by rw [hl]; rfl)
      ⟨rfl, fun _ => rfl, fun _ => rfl, fun _ => rfl, rfl, Nat.le_refl _, h.g.tr_lt, ?_⟩
      (fun _ _ => rfl)
      (fun le lt hx => ⟨h.g.hnd _ le lt hx, fun _ => (h.sync_le hA (by rw [hl]; rfl) hx).1⟩)
      (fun le' lt' hx => ?_)
      (by rw [hl]; exact fun _ _ _ _ hx => hx.elim) (hel_same h hA (by rw [hl]; rfl))
      (by rw [hl]; exact fun hx => hx) (fun _ _ _ _ => trivial)
    · simp only
      split <;> omega
    · simp only at hx
      rw [hy] at hx
      simp only [Option.some.injEq, Prod.mk.injEq] at hx
      obtain ⟨rfl, rfl⟩ := hx
      refine ⟨hW, ?_, trivial⟩
      simp only
      split <;> omega

theorem int_g8 (h : CI a c) (hA : c.th t = some A) {y w : Nat} {cc : Cont} (hl : A.loc = .g8 y w cc)
    (hst : step c.sh (.g8 y w cc) = some (s', .inl l')) : Goal a c t A s' l' := by
  intro hex
  simp only [step] at hst
  simp only [Option.some.injEq, Prod.mk.injEq, Sum.inl.injEq] at hst
  obtain ⟨rfl, rfl⟩ := hst
  have hli := h.li t A hA
  rw [hl] at hli
  obtain ⟨hw, hli⟩ := hli
  refine upd_quiet h hA hex (by rw [hl]; rfl) (by rw [hl]; rfl)
    ⟨rfl, fun _ => rfl, fun _ => rfl, fun _ => rfl, rfl, ?_, ?_, Nat.le_refl _⟩
    (fun _ _ => rfl)
    (fun le lt hx => ⟨?_, fun _ => (h.sync_le hA (by rw [hl]; rfl) hx).1⟩)
    (fun le' lt' hx => ⟨(hli le' lt' hx).1, (hli le' lt' hx).2.1, (hli le' lt' hx).2.2, ?_⟩)
    (by rw [hl]; exact fun _ _ _ _ hx => hx.elim) (hel_same h hA (by rw [hl]; rfl))
    (by rw [hl]; exact fun hx => hx) (fun _ _ _ _ => trivial)
  · simp only
    split <;> omega
  · have := h.g.tr_lt
    simp only
    split <;> omega
  · have := h.g.hnd _ le lt hx
    simp only
    split <;> omega
  · simp only
    split <;> omega

/-- Replacing the current table. -/
theorem int_g9 (h : CI a c) (hA : c.th t = some A) {y w : Nat} {cc : Cont} (hl : A.loc = .g9 y w cc)
    (hst : step c.sh (.g9 y w cc) = some (s', .inl l')) : Goal a c t A s' l' := by
  intro hex
  simp only [step] at hst
  split at hst
  · cases hst
  · rename_i le lt hy
    simp only [Option.some.injEq, Prod.mk.injEq, Sum.inl.injEq] at hst
    obtain ⟨rfl, rfl⟩ := hst
    have hli := h.li t A hA
    rw [hl] at hli
    obtain ⟨hW, hew, hD, htr⟩ := hli le lt hy
    have hsl := h.sync_le hA (by rw [hl]; rfl) (by rw [hl]; exact hy)
    by_cases heq : c.sh.er = lt
    · rw [if_pos heq] at hex ⊢
      obtain ⟨hD1, hD2⟩ := hD heq.symm
      have hw := hW.2.2 heq.symm
      have htl := h.g.tr_lt
      have hlast := h.g.last
      have he : Ext c.sh { c.sh with er := w } :=
        ⟨Nat.le_refl _, fun _ _ => AExt.refl _, fun _ => Nat.le_refl _, by simp only; omega,
          Nat.le_refl _, Nat.le_refl _, fun _ _ => rfl⟩
      have hg : GI a { c.sh with er := w } := by
        refine ⟨htr, htl, by simp only; omega, by simp only; omega, h.g.tab,
          fun v hv => h.g.cp0 v (by simp only at hv; omega), fun _ => h.g.cp0 w (by omega),
          fun v hv => ?_, fun x le' lt' hx => ?_⟩
        · simp only at hv
          rcases Nat.lt_or_ge v c.sh.er with h1 | h1
          · refine ⟨(h.g.old v h1).1, fun k hk hm => ?_⟩
            have := hD2 k hk ((h.g.old v h1).2 k hk hm)
            rw [← hw] at this
            exact this
          · have : v = c.sh.er := by omega
            rw [this]
            refine ⟨hD1, fun k hk hm => ?_⟩
            have := hD2 k hk hm
            rw [← hw] at this
            exact this
        · have := h.g.hnd x le' lt' hx
          simp only
          omega
      refine upd h t (locH A.loc) (fun B hB => ?_) (fun B hB => ?_) (Or.inl ⟨A, hA⟩) hex he hg
        (fun _ _ => rfl) (fun le lt h1 h2 => ?_) (fun B hB => ?_) (fun j k h1 => ?_)
        (hel_same h hA (by rw [hl]; rfl)) (fun hx => ?_) (fun k hk => Or.inl hk)
        (fun u k _ hx => hx) (fun B hB hx => ?_) h.ret
      · rw [hA] at hB
        injection hB with hB
        subst hB
        exact (h.lh t A hA).symm
      · injection hB with hB
        subst hB
        refine ⟨(h.lh t A hA).symm, by rw [hl]; rfl, ?_, (h.lk t A hA).2⟩
        have := (h.lk t A hA).1
        rw [hl] at this
        exact this
      · exact absurd (h2 _ rfl) (by simp [sync])
      · injection hB with hB
        subst hB
        trivial
      · have := h.g.cp0 w (by omega)
        exact absurd h1 (by
          show ¬ j < cp c.sh w
          omega)
      · simp only at hx
        omega
      · injection hB with hB
        subst hB
        trivial
    · rw [if_neg heq] at hex ⊢
      refine upd_quiet h hA hex (by rw [hl]; rfl) (by rw [hl]; rfl) (Quiet.refl h.g) (fun _ _ => rfl)
        (fun le lt hx => ⟨h.g.hnd _ le lt hx, by simp [sync]⟩) trivial
        (by rw [hl]; exact fun _ _ _ _ hx => hx.elim) (hel_same h hA (by rw [hl]; rfl))
        (fun hx => ?_) (fun _ _ _ _ => trivial)
      rw [hl] at hx
      obtain ⟨le', hx⟩ := hx
      rw [hy] at hx
      simp only [Option.some.injEq, Prod.mk.injEq] at hx
      exact absurd hx.2.symm heq

theorem get_append {s : Shared} {tb : Tab} (u : Nat) :
    (s.tabs ++ [tb])[u]? = if u = s.tabs.length then some tb else s.tabs[u]? := by
  by_cases hu : u = s.tabs.length
  · subst hu
    simp
  · rw [if_neg hu, List.getElem?_append]
    split
    · rfl
    · rename_i h
      rw [List.getElem?_eq_none (by simp; omega), List.getElem?_eq_none (by omega)]

/-- Creating the next table, or finding that it exists. -/
theorem int_g1 (h : CI a c) (hA : c.th t = some A) {y : Nat} {cc : Cont} (hl : A.loc = .g1 y cc)
    (hst : step c.sh (.g1 y cc) = some (s', .inl l')) : Goal a c t A s' l' := by
  intro hex
  simp only [step] at hst
  split at hst
  · cases hst
  · rename_i le lt hy
    split at hst
    · cases hst
    rename_i tb htb
    have hsl := h.sync_le hA (by rw [hl]; rfl) (by rw [hl]; exact hy)
    have hel := h.g.er_lt
    have htl := h.g.tr_lt
    have hlast := h.g.last
    split at hst
    · rename_i heq
      simp only [Option.some.injEq, Prod.mk.injEq, Sum.inl.injEq] at hst
      obtain ⟨rfl, rfl⟩ := hst
      generalize hnt : (⟨ConcSet.new tb.t.a (tb.t.arr.length * 2), 0⟩ : Tab) = nt at hex ⊢
      have hlen : c.sh.tabs.length = c.sh.er + 1 := by omega
      have hlt : lt = c.sh.er := by omega
      have har : ∀ v, v < c.sh.tabs.length → ar { c.sh with tabs := c.sh.tabs ++ [nt] } v = ar c.sh v := by
        intro v hv
        simp only [ar]
        rw [get_append, if_neg (by omega)]
      have hcp : ∀ v, cp { c.sh with tabs := c.sh.tabs ++ [nt] } v = cp c.sh v := by
        intro v
        simp only [cp]
        rw [get_append]
        by_cases hv : v = c.sh.tabs.length
        · rw [if_pos hv, hv, List.getElem?_eq_none (Nat.le_refl _), ← hnt]
        · rw [if_neg hv]
      have hcp0 := h.g.cpl hlen
      have he : Ext c.sh { c.sh with tabs := c.sh.tabs ++ [nt] } :=
        ⟨by simp, fun v hv => by rw [har v hv]; exact AExt.refl _, fun v => by rw [hcp], Nat.le_refl _,
          Nat.le_refl _, Nat.le_refl _, fun j hj => by omega⟩
      have hg : GI a { c.sh with tabs := c.sh.tabs ++ [nt] } := by
        refine ⟨h.g.er_tr, by simp; omega, by simp; omega, h.g.er_ew, fun v hv => ?_,
          fun v hv => by rw [hcp]; exact h.g.cp0 v hv, fun hx => ?_,
          fun v hv => ?_, h.g.hnd⟩
        · simp only [List.length_append, List.length_cons, List.length_nil] at hv
          by_cases hv' : v = c.sh.tabs.length
          · have h1 : ar { c.sh with tabs := c.sh.tabs ++ [nt] } v = nt.t.arr := by
              simp only [ar]
              rw [get_append, if_pos hv']
            have h2 : mu { c.sh with tabs := c.sh.tabs ++ [nt] } v = nt.t.a := by
              simp only [mu]
              rw [get_append, if_pos hv']
            have hltl : lt < c.sh.tabs.length := by omega
            have hpos := h.g.arr_pos hltl
            have hta := (h.g.tab lt hltl).1
            rw [mu_some htb] at hta
            rw [ar_some htb] at hpos
            rw [h1, h2, ← hnt]
            refine ⟨hta, ?_, pathOk_replicate _ _⟩
            simp only [ConcSet.new, List.length_replicate]
            exact nextPow2_isPow (by omega)
          · have h2 : mu { c.sh with tabs := c.sh.tabs ++ [nt] } v = mu c.sh v := by
              simp only [mu]
              rw [get_append, if_neg hv']
            rw [har v (by omega), h2]
            exact h.g.tab v (by omega)
        · simp at hx
          omega
        · simp only at hv ⊢
          rw [har v (by omega), har c.sh.er (by omega), hcp]
          exact h.g.old v hv
      refine upd h t (locH A.loc) (fun B hB => ?_) (fun B hB => ?_) (Or.inl ⟨A, hA⟩) hex he hg
        (fun _ _ => rfl) (fun le lt h1 h2 => (h.sync_le hA (by rw [hl]; rfl) h1).1) (fun B hB => ?_)
        (fun j k h1 => ?_)
        (hel_same h hA (by rw [hl]; rfl)) (fun hx => ?_) (fun k hk => Or.inl hk)
        (fun u k _ hx => hx) (fun B hB hx => ?_) h.ret
      · rw [hA] at hB
        injection hB with hB
        subst hB
        exact (h.lh t A hA).symm
      · injection hB with hB
        subst hB
        refine ⟨(h.lh t A hA).symm, by rw [hl]; rfl, ?_, (h.lk t A hA).2⟩
        have := (h.lk t A hA).1
        rw [hl] at this
        exact this
      · injection hB with hB
        subst hB
        intro le' lt' hx
        simp only at hx
        rw [hy] at hx
        simp only [Option.some.injEq, Prod.mk.injEq] at hx
        exact ⟨by omega, by simp, fun _ => by simp only; omega⟩
      · rw [hcp] at h1
        simp only at h1
        omega
      · exact ⟨t, _, Function.update_self .., ⟨le, by rw [← hlt]; exact hy⟩⟩
      · injection hB with hB
        subst hB
        trivial
    · rename_i hne
      simp only [Option.some.injEq, Prod.mk.injEq, Sum.inl.injEq] at hst
      obtain ⟨rfl, rfl⟩ := hst
      refine upd_quiet h hA hex (by rw [hl]; rfl) (by rw [hl]; rfl) (Quiet.refl h.g) (fun _ _ => rfl)
        (fun le lt hx => ⟨h.g.hnd _ le lt hx, fun _ => (h.sync_le hA (by rw [hl]; rfl) hx).1⟩)
        (fun le' lt' hx => ?_)
        (by rw [hl]; exact fun _ _ _ _ hx => hx.elim) (hel_same h hA (by rw [hl]; rfl))
        (by rw [hl]; exact fun hx => hx.elim) (fun _ _ _ _ => trivial)
      rw [hy] at hx
      simp only [Option.some.injEq, Prod.mk.injEq] at hx
      exact ⟨by omega, by omega, fun _ => by omega⟩

/-- The state after a step of the migration. -/
def migT (s : Shared) (lt w : Nat) (old nw : Tab) (s1 : Migrate.Shared) : Shared :=
  { s with tabs := (s.tabs.set w { nw with t := s1.new }).set lt { old with copy := s1.copy },
           helpers := s1.helpers }

theorem migT_get {s : Shared} {lt w : Nat} {old nw : Tab} (ho : s.tabs[lt]? = some old)
    (hn : s.tabs[w]? = some nw) (hlw : lt < w) (s1 : Migrate.Shared) (u : Nat) :
    (migT s lt w old nw s1).tabs[u]? = if u = lt then some { old with copy := s1.copy } else
      if u = w then some { nw with t := s1.new } else s.tabs[u]? := by
  obtain ⟨ho1, _⟩ := List.getElem?_eq_some_iff.1 ho
  obtain ⟨hn1, _⟩ := List.getElem?_eq_some_iff.1 hn
  simp only [migT]
  rw [List.getElem?_set, List.length_set, List.getElem?_set]
  by_cases h1 : u = lt
  · rw [if_pos h1.symm, if_pos h1, if_pos ho1]
  · rw [if_neg (fun h => h1 h.symm), if_neg h1]
    by_cases h2 : u = w
    · rw [if_pos h2.symm, if_pos h2, if_pos hn1]
    · rw [if_neg (fun h => h2 h.symm), if_neg h2]

theorem migT_ar {s : Shared} {lt w : Nat} {old nw : Tab} (ho : s.tabs[lt]? = some old)
    (hn : s.tabs[w]? = some nw) (hlw : lt < w) (s1 : Migrate.Shared) (u : Nat) :
    ar (migT s lt w old nw s1) u = if u = w then s1.new.arr else ar s u := by
  by_cases h1 : u = lt
  · rw [if_neg (by omega), h1, ar_some ho]
    simp only [ar]
    rw [migT_get ho hn hlw, if_pos rfl]
  · by_cases h2 : u = w
    · rw [if_pos h2]
      simp only [ar]
      rw [migT_get ho hn hlw, if_neg h1, if_pos h2]
    · rw [if_neg h2]
      simp only [ar]
      rw [migT_get ho hn hlw, if_neg h1, if_neg h2]

theorem migT_cp {s : Shared} {lt w : Nat} {old nw : Tab} (ho : s.tabs[lt]? = some old)
    (hn : s.tabs[w]? = some nw) (hlw : lt < w) (s1 : Migrate.Shared) (u : Nat) :
    cp (migT s lt w old nw s1) u = if u = lt then s1.copy else cp s u := by
  by_cases h1 : u = lt
  · rw [if_pos h1]
    simp only [cp]
    rw [migT_get ho hn hlw, if_pos h1]
  · rw [if_neg h1]
    by_cases h2 : u = w
    · rw [h2, cp_some hn]
      simp only [cp]
      rw [migT_get ho hn hlw, if_neg (by omega), if_pos rfl]
    · simp only [cp]
      rw [migT_get ho hn hlw, if_neg h1, if_neg h2]

theorem migT_mu {s : Shared} {lt w : Nat} {old nw : Tab} (ho : s.tabs[lt]? = some old)
    (hn : s.tabs[w]? = some nw) (hlw : lt < w) {s1 : Migrate.Shared} (ha : s1.new.a = nw.t.a) (u : Nat) :
    mu (migT s lt w old nw s1) u = mu s u := by
  by_cases h1 : u = lt
  · rw [h1, mu_some ho]
    simp only [mu]
    rw [migT_get ho hn hlw, if_pos rfl]
  · by_cases h2 : u = w
    · rw [h2, mu_some hn]
      simp only [mu]
      rw [migT_get ho hn hlw, if_neg (by omega), if_pos rfl]
      exact ha
    · simp only [mu]
      rw [migT_get ho hn hlw, if_neg h1, if_neg h2]

theorem migT_len (s : Shared) (lt w : Nat) (old nw : Tab) (s1 : Migrate.Shared) :
    (migT s lt w old nw s1).tabs.length = s.tabs.length := by simp [migT]

theorem migT_quiet {s : Shared} (hg : GI a s) {lt w : Nat} {old nw : Tab}
    (ho : s.tabs[lt]? = some old)
    (hn : s.tabs[w]? = some nw) (hlw : lt < w) {s1 : Migrate.Shared} (ha : s1.new.a = nw.t.a)
    (harr : s1.new.arr = nw.t.arr) (hc : s1.copy = old.copy) : Quiet s (migT s lt w old nw s1) := by
  refine ⟨migT_len .., fun v => ?_, fun v => ?_, migT_mu ho hn hlw ha, rfl, Nat.le_refl _, hg.tr_lt,
    Nat.le_refl _⟩
  · rw [migT_ar ho hn hlw]
    split
    · rename_i h
      rw [h, ar_some hn, harr]
    · rfl
  · rw [migT_cp ho hn hlw]
    split
    · rename_i h
      rw [h, cp_some ho, hc]
    · rfl

theorem migT_claim {s : Shared} (hg : GI a s) {lt w : Nat} {old nw : Tab}
    (ho : s.tabs[lt]? = some old) (hn : s.tabs[w]? = some nw) (hW : W s lt w) (hle : lt ≤ s.er)
    {s1 : Migrate.Shared} (hnew : s1.new = nw.t) (hc : s1.copy = old.copy + Migrate.blockSize) :
    Ext s (migT s lt w old nw s1) ∧ GI a (migT s lt w old nw s1) := by
  have hlw := hW.1
  have har : ∀ v, ar (migT s lt w old nw s1) v = ar s v := by
    intro v
    rw [migT_ar ho hn hlw]
    split
    · rename_i hv; rw [hv, ar_some hn, hnew]
    · rfl
  have hcp : ∀ v, v ≠ lt → cp (migT s lt w old nw s1) v = cp s v := by
    intro v hv
    rw [migT_cp ho hn hlw, if_neg hv]
  have hcpm : ∀ v, cp s v ≤ cp (migT s lt w old nw s1) v := by
    intro v
    rw [migT_cp ho hn hlw]
    split
    · rename_i hv; rw [hv, cp_some ho, hc]; omega
    · exact Nat.le_refl _
  constructor
  · exact ⟨by rw [migT_len], fun v _ => by rw [har]; exact AExt.refl _, hcpm, Nat.le_refl _, Nat.le_refl _,
      Nat.le_refl _, fun j _ => by rw [har]⟩
  · refine ⟨hg.er_tr, by rw [migT_len]; exact hg.tr_lt, by rw [migT_len]; exact hg.last,
      hg.er_ew, fun v hv => ?_, fun v hv => ?_, fun hx => ?_, fun v hv => ?_, hg.hnd⟩
    · rw [migT_mu ho hn hlw (by rw [hnew]), har]
      exact hg.tab v (by rw [migT_len] at hv; exact hv)
    · have hv' : s.er < v := hv
      rw [hcp v (by omega)]
      exact hg.cp0 v hv'
    · have hx' : s.tabs.length = s.er + 1 := by rw [migT_len] at hx; exact hx
      have hlt : lt ≠ s.er := by
        intro hlt
        have := hW.2.2 hlt
        have := hW.2.1
        omega
      show cp (migT s lt w old nw s1) s.er = 0
      rw [hcp _ (fun h => hlt h.symm)]
      exact hg.cpl hx'
    · show (ar (migT s lt w old nw s1) v).length ≤ cp (migT s lt w old nw s1) v ∧
        ∀ k, k ≠ 0 → k ∈ ar (migT s lt w old nw s1) v → k ∈ ar (migT s lt w old nw s1) s.er
      rw [har, har]
      exact ⟨Nat.le_trans (hg.old v hv).1 (hcpm v), (hg.old v hv).2⟩

/-- A thread that is not counted as a helper has nothing to copy. -/
theorem not_busy_of_inside {m : Migrate.Loc} (h : insideL m = false) (j k : Nat) :
    remL j m = false ∧ ¬ carries k j m := by
  cases m <;> simp_all [insideL, remL, carries]

theorem carries_inj {k k' i i' : Nat} {m : Migrate.Loc} (h : carries k i m) (h' : carries k' i' m) :
    k = k' ∧ i = i' := by
  cases m <;> simp_all [carries]

theorem int_mig (h : CI a c) (hA : c.th t = some A) {y w : Nat} {m : Migrate.Loc} {cc : Cont}
    (hl : A.loc = .mig y w m cc)
    (hst : step c.sh (.mig y w m cc) = some (s', .inl l')) : Goal a c t A s' l' := by
  intro hex
  simp only [step] at hst
  split at hst
  · cases hst
  rename_i le lt hy
  split at hst
  · rename_i old nw ho hn
    have hli := h.li t A hA
    rw [hl] at hli
    obtain ⟨hW, hew, hloc⟩ := hli le lt hy
    have hsl := h.sync_le hA (by rw [hl]; rfl) (by rw [hl]; exact hy)
    have hlw := hW.1
    obtain ⟨hna, ⟨p, hp⟩, hpath⟩ := h.g.tab w hW.2.1
    rw [mu_some hn] at hna
    rw [ar_some hn] at hp hpath
    have hmono : ∀ s1 : Migrate.Shared, s1.old = old.t.arr → s1.new.arr = nw.t.arr →
        s1.new.a = a → old.copy ≤ s1.copy → ∀ m', Migrate.LocOk (migS a c.sh lt w) m' →
          Migrate.LocOk s1 m' := by
      intro s1 g1 g2 g3 g4 m' hm
      exact Migrate.LocOk.mono (s := migS a c.sh lt w) (by rw [g1, migS, ar_some ho])
        (by rw [g2, migS, ar_some hn]) (by rw [g3, migS]) (by rw [migS, cp_some ho]; exact g4) hm
    have hback : ∀ s1 : Migrate.Shared, s1.old = old.t.arr → s1.new.arr = nw.t.arr →
        s1.new.a = a → s1.copy = old.copy → ∀ m', Migrate.LocOk s1 m' →
          Migrate.LocOk (migS a c.sh lt w) m' := by
      intro s1 g1 g2 g3 g4 m' hm
      exact Migrate.LocOk.mono (s := s1) (by rw [g1, migS, ar_some ho])
        (by rw [g2, migS, ar_some hn]) (by rw [g3, migS]) (by rw [migS, cp_some ho]; simp only; omega) hm
    obtain ⟨s1, out, hs1, hcase⟩ := Migrate.step_cases
      (s := ⟨old.t.arr, old.copy, nw.t, c.sh.helpers, []⟩) (p := p) hp
      (hmono _ rfl rfl hna (Nat.le_refl _) _ hloc)
    rw [hs1] at hst
    simp only [Option.some.injEq, Prod.mk.injEq] at hst
    obtain ⟨rfl, hst⟩ := hst
    change Exclusive ({ c with sh := migT c.sh lt w old nw s1, th := _ } :
      Config n Shared Loc Op ConcSet.SetRet) at hex
    change CI a { c with sh := migT c.sh lt w old nw s1, th := _ }
    have hhs : (migT c.sh lt w old nw s1).hs = c.sh.hs := rfl
    have hW' : W (migT c.sh lt w old nw s1) lt w := ⟨hlw, by rw [migT_len]; exact hW.2.1, hW.2.2⟩
    -- a step that does not change the tables
    have quiet : ∀ (_ : s1.new.a = nw.t.a) (_ : s1.new.arr = nw.t.arr) (_ : s1.copy = old.copy)
        (m' : Migrate.Loc) (_ : .mig y w m' cc = l') (_ : Migrate.LocOk (migS a c.sh lt w) m')
        (_ : ∀ j k, k ≠ 0 → (ar c.sh lt)[j]? = some k → remL j m = true ∨ carries k j m →
          (k ∈ nw.t.arr) ∨ remL j m' = true ∨ carries k j m')
        (_ : s1.helpers = cnt inTh (Function.update c.th t (some ⟨A.op, l', A.steps + 1⟩))),
        CI a { c with sh := migT c.sh lt w old nw s1,
                      th := Function.update c.th t (some ⟨A.op, l', A.steps + 1⟩) } := by
      rintro g1 g2 g3 m' rfl g4 g5 g6
      have hq := migT_quiet h.g ho hn hlw g1 g2 g3
      refine upd_quiet h hA hex (by rw [hl]; rfl) (by rw [hl]; rfl) hq
        (fun _ _ => rfl)
        (fun le lt hx => ⟨h.g.hnd _ le lt hx, fun _ => (h.sync_le hA (by rw [hl]; rfl) hx).1⟩)
        (fun le' lt' hx => ?_) (fun j k h1 h2 h3 => ?_) g6 (by rw [hl]; exact fun hx => hx)
        (fun _ _ _ _ => trivial)
      · rw [hhs, hy] at hx
        simp only [Option.some.injEq, Prod.mk.injEq] at hx
        obtain ⟨rfl, rfl⟩ := hx
        refine ⟨hW', hew, ?_⟩
        have : migS a (migT c.sh lt w old nw s1) lt w = migS a c.sh lt w := by
          simp only [migS]
          rw [hq.ar, hq.cp, hq.ar]
        rw [this]
        exact g4
      · rw [hl] at h3
        obtain ⟨⟨le', h3⟩, h4⟩ := h3
        rw [hy] at h3
        simp only [Option.some.injEq, Prod.mk.injEq] at h3
        rw [← h3.2] at h2
        rcases g5 j k h1 h2 h4 with h5 | h5
        · refine Or.inl ?_
          rw [← hW.2.2 h3.2, ar_some hn]
          exact h5
        · exact Or.inr ⟨⟨le, by rw [hhs, hy, h3.2]; rfl⟩, h5⟩
    have hsame : ∀ m', insideL m' = insideL m → .mig y w m' cc = l' →
        c.sh.helpers = cnt inTh (Function.update c.th t (some ⟨A.op, l', A.steps + 1⟩)) := by
      rintro m' hm rfl
      exact hel_same h hA (by rw [hl]; exact hm)
    cases hcase with
    | enter hm =>
      injection hst with hst
      refine quiet rfl rfl rfl .claim hst trivial (fun j k _ _ hx => ?_) ?_
      · rw [hm] at hx
        simp [remL, carries] at hx
      · rw [cnt_update_add (by rw [hA]; simp [inTh, hl, hm, inLoc, insideL])
          (by rw [← hst]; rfl), ← h.hel]
    | claim hm hlt =>
      injection hst with hst
      subst hst
      simp only at hlt
      obtain ⟨he, hg⟩ := migT_claim h.g ho hn hW hsl.2
        (s1 := ⟨old.t.arr, old.copy + Migrate.blockSize, nw.t, c.sh.helpers, []⟩) rfl rfl
      refine upd_int h hA hex (by rw [hl]; rfl) (by rw [hl]; rfl) he rfl (migT_len ..) hg (fun _ _ => rfl)
        (fun le lt hx _ => (h.sync_le hA (by rw [hl]; rfl) hx).1) (fun le' lt' hx => ?_)
        (fun j k _ _ hx => ?_) (fun j k h1 h2 h3 h4 => ?_) (hsame _ (by rw [hm]; rfl) rfl)
        (by rw [hl]; exact fun hx => hx) (fun _ _ _ _ => trivial)
      · rw [hhs, hy] at hx
        simp only [Option.some.injEq, Prod.mk.injEq] at hx
        obtain ⟨rfl, rfl⟩ := hx
        refine ⟨hW', hew, ?_⟩
        simp only [migS, Migrate.LocOk]
        rw [migT_ar ho hn hlw, if_neg (by omega), ar_some ho]
        unfold Migrate.blockSize
        omega
      · rw [hl, hm] at hx
        exact absurd hx.2 (by simp [remL, carries])
      · rw [migT_cp ho hn hlw] at h2
        split at h2
        · rename_i her
          simp only at h2
          have hjl : j < old.t.arr.length := by
            rw [migT_ar ho hn hlw, if_neg (by omega), her, ar_some ho] at h3
            exact (List.getElem?_eq_some_iff.1 h3).1
          rw [her, cp_some ho] at h1
          refine ⟨⟨le, by rw [hhs, hy, ← her]; rfl⟩, Or.inl ?_⟩
          simp only [remL, decide_eq_true_eq]
          omega
        · omega
    | claimEnd hm hlt =>
      injection hst with hst
      subst hst
      simp only at hlt
      obtain ⟨he, hg⟩ := migT_claim h.g ho hn hW hsl.2
        (s1 := ⟨old.t.arr, old.copy + Migrate.blockSize, nw.t, c.sh.helpers, []⟩) rfl rfl
      refine upd_int h hA hex (by rw [hl]; rfl) (by rw [hl]; rfl) he rfl (migT_len ..) hg (fun _ _ => rfl)
        (fun le lt hx _ => (h.sync_le hA (by rw [hl]; rfl) hx).1) (fun le' lt' hx => ?_)
        (fun j k _ _ hx => ?_) (fun j k h1 h2 h3 h4 => ?_) (hsame _ (by rw [hm]; rfl) rfl)
        (by rw [hl]; exact fun hx => hx) (fun _ _ _ _ => trivial)
      · rw [hhs, hy] at hx
        simp only [Option.some.injEq, Prod.mk.injEq] at hx
        obtain ⟨rfl, rfl⟩ := hx
        refine ⟨hW', hew, ?_⟩
        simp only [migS, Migrate.LocOk]
        rw [migT_ar ho hn hlw, if_neg (by omega), ar_some ho, migT_cp ho hn hlw, if_pos rfl]
        simp only
        omega
      · rw [hl, hm] at hx
        exact absurd hx.2 (by simp [remL, carries])
      · exfalso
        rw [migT_cp ho hn hlw] at h2
        split at h2
        · rename_i her
          have hjl : j < old.t.arr.length := by
            rw [migT_ar ho hn hlw, if_neg (by omega), her, ar_some ho] at h3
            exact (List.getElem?_eq_some_iff.1 h3).1
          rw [her, cp_some ho] at h1
          omega
        · omega
    | slot v i e hm hie hv hv0 hel =>
      injection hst with hst
      refine quiet rfl rfl rfl _ hst ?_ (fun j k hk hjk hx => ?_) ?_
      · refine hback ⟨old.t.arr, old.copy, nw.t, c.sh.helpers, []⟩ rfl rfl hna rfl _ ?_
        exact ⟨hv0, hv, hel, 0, rfl, fun e he => absurd he (by omega)⟩
      · rw [ar_some ho] at hjk
        rw [hm] at hx
        simp only [remL, decide_eq_true_eq, carries, or_false] at hx
        by_cases hji : j = i
        · subst hji
          simp only at hv
          rw [hv] at hjk
          injection hjk with hjk
          exact Or.inr (Or.inr ⟨hjk, rfl⟩)
        · refine Or.inr (Or.inl ?_)
          simp only [remL, decide_eq_true_eq]
          omega
      · exact hsame _ (by rw [hm]; rfl) hst
    | slotFree i e hm hie hv hel =>
      injection hst with hst
      refine quiet rfl rfl rfl _ hst ?_ (fun j k hk hjk hx => ?_) ?_
      · exact hback ⟨old.t.arr, old.copy, nw.t, c.sh.helpers, []⟩ rfl rfl hna rfl _
          (Migrate.LocOk_next hel)
      · rw [ar_some ho] at hjk
        rw [hm] at hx
        simp only [remL, decide_eq_true_eq, carries, or_false] at hx
        refine Or.inr (Or.inl ?_)
        rw [Migrate.remL_next, decide_eq_true_eq]
        have : j ≠ i := by
          rintro rfl
          simp only at hv
          rw [hv] at hjk
          injection hjk with hjk
          exact hk hjk.symm
        omega
      · exact hsame _ (by rw [hm, Migrate.insideL_next]; rfl) hst
    | move m' g1 g2 g3 g4 g5 g6 =>
      injection hst with hst
      refine quiet rfl rfl rfl m' hst (hback _ rfl rfl hna rfl _ g1) (fun j k hk hjk hx => ?_)
        (hsame _ g3 hst)
      rcases hx with hx | hx
      · exact Or.inr (Or.inl (by rw [g2]; exact hx))
      · exact Or.inr (Or.inr (g6 k j hx))
    | skip k0 i m' g1 g2 g3 g4 g5 g6 g7 =>
      injection hst with hst
      refine quiet rfl rfl rfl m' hst (hback _ rfl rfl hna rfl _ g3) (fun j k hk hjk hx => ?_)
        (hsame _ g5 hst)
      rcases hx with hx | hx
      · exact Or.inr (Or.inl (by rw [g4]; exact hx))
      · obtain ⟨rfl, _⟩ := carries_inj g1 hx
        exact Or.inl g2
    | cas k0 d i e j hm hk0 hold hel h0 hpass =>
      injection hst with hst
      subst hst
      simp only at hold h0 hpass hel
      have hnpos : 0 < nw.t.arr.length := by rw [hp]; exact Nat.pow_pos (by omega)
      have hmem : k0 ∈ ar c.sh lt := by
        rw [ar_some ho]
        exact List.mem_of_getElem? hold
      have hnot : k0 ∉ nw.t.arr := by
        rw [hna] at h0 hpass
        exact PathOk.not_mem hpath hk0 h0 hpass
      have hwer : w ≠ c.sh.er := by
        intro hx
        apply hnot
        rw [← ar_some hn, hx]
        exact (h.g.old lt (by omega)).2 k0 hk0 hmem
      have har := migT_ar ho hn hlw ⟨old.t.arr, old.copy, { nw.t with
        arr := nw.t.arr.set ((hash64 nw.t.a k0 + d) % nw.t.arr.length) k0 }, c.sh.helpers, []⟩
      have hcp : ∀ v, cp (migT c.sh lt w old nw ⟨old.t.arr, old.copy, { nw.t with
          arr := nw.t.arr.set ((hash64 nw.t.a k0 + d) % nw.t.arr.length) k0 }, c.sh.helpers, []⟩) v =
          cp c.sh v := by
        intro v
        rw [migT_cp ho hn hlw]
        split
        · rename_i hv; rw [hv, cp_some ho]
        · rfl
      have hext : AExt nw.t.arr (nw.t.arr.set ((hash64 nw.t.a k0 + d) % nw.t.arr.length) k0) :=
        AExt.set hnpos h0
      have hin : k0 ∈ nw.t.arr.set ((hash64 nw.t.a k0 + d) % nw.t.arr.length) k0 :=
        List.mem_set (Nat.mod_lt _ hnpos) _
      have he : Ext c.sh (migT c.sh lt w old nw ⟨old.t.arr, old.copy, { nw.t with
          arr := nw.t.arr.set ((hash64 nw.t.a k0 + d) % nw.t.arr.length) k0 }, c.sh.helpers, []⟩) := by
        refine ⟨by rw [migT_len], fun v _ => ?_, fun v => by rw [hcp], Nat.le_refl _, Nat.le_refl _,
          Nat.le_refl _, fun j _ => ?_⟩
        · rw [har]
          split
          · rename_i hv; rw [hv, ar_some hn]; exact hext
          · exact AExt.refl _
        · rw [har, if_neg (fun hx => hwer hx.symm)]
      have hg : GI a (migT c.sh lt w old nw ⟨old.t.arr, old.copy, { nw.t with
          arr := nw.t.arr.set ((hash64 nw.t.a k0 + d) % nw.t.arr.length) k0 }, c.sh.helpers, []⟩) := by
        refine ⟨h.g.er_tr, by rw [migT_len]; exact h.g.tr_lt, by rw [migT_len]; exact h.g.last,
          h.g.er_ew, fun v hv => ?_, fun v hv => by rw [hcp]; exact h.g.cp0 v hv,
          fun hx => by rw [hcp]; exact h.g.cpl (by rw [migT_len] at hx; exact hx),
          fun v hv => ?_, h.g.hnd⟩
        · rw [migT_len] at hv
          rw [migT_mu ho hn hlw rfl, har]
          split
          · refine ⟨(h.g.tab v hv).1, ⟨p, by rw [hext.len, hp]⟩, ?_⟩
            rw [hna] at h0 hpass ⊢
            exact PathOk.set hnpos hpath h0 hpass
          · exact h.g.tab v hv
        · have hv' : v < c.sh.er := hv
          have herr : (migT c.sh lt w old nw ⟨old.t.arr, old.copy, { nw.t with
            arr := nw.t.arr.set ((hash64 nw.t.a k0 + d) % nw.t.arr.length) k0 }, c.sh.helpers, []⟩).er =
            c.sh.er := rfl
          rw [herr, hcp, har c.sh.er, if_neg (fun hx => hwer hx.symm), har]
          obtain ⟨g1, g2⟩ := h.g.old v hv'
          split
          · rename_i hvw
            subst hvw
            rw [ar_some hn] at g1 g2
            refine ⟨by rw [hext.len]; exact g1, fun k hk hm => ?_⟩
            rcases List.mem_or_eq_of_mem_set hm with hm | hm
            · exact g2 k hk hm
            · rw [hm]
              exact h.g.up hsl.2 hk0 hmem
          · exact ⟨g1, g2⟩
      refine upd_int h hA hex (by rw [hl]; rfl) (by rw [hl]; rfl) he rfl (migT_len ..) hg (fun _ _ => rfl)
        (fun le lt hx _ => (h.sync_le hA (by rw [hl]; rfl) hx).1) (fun le' lt' hx => ?_)
        (fun j' k hk _ hx => ?_) (fun j k h1 h2 h3 h4 => ?_) (hsame _ (by rw [hm]; rfl) rfl)
        (by rw [hl]; exact fun hx => hx) (fun _ _ _ _ => trivial)
      · rw [hhs, hy] at hx
        simp only [Option.some.injEq, Prod.mk.injEq] at hx
        obtain ⟨rfl, rfl⟩ := hx
        refine ⟨hW', hew, ?_⟩
        simp only [migS, Migrate.LocOk]
        rw [har, if_neg (by omega), ar_some ho]
        exact hel
      · rw [hl, hm] at hx
        obtain ⟨⟨le', h3⟩, h4⟩ := hx
        rw [hy] at h3
        simp only [Option.some.injEq, Prod.mk.injEq] at h3
        rcases h4 with h4 | h4
        · exact Or.inr ⟨⟨le, by rw [hhs, hy, h3.2]; rfl⟩, Or.inl h4⟩
        · refine Or.inl ?_
          rw [← hW.2.2 h3.2, har, if_pos rfl, ← h4.1]
          exact hin
      · rw [hcp] at h2
        omega
    | incr i e hm hel =>
      injection hst with hst
      refine quiet rfl rfl rfl _ hst (hback ⟨old.t.arr, old.copy, nw.t, c.sh.helpers, []⟩ rfl rfl hna rfl _
        (Migrate.LocOk_next hel)) (fun j k hk hjk hx => ?_) ?_
      · rw [hm] at hx
        simp only [remL, decide_eq_true_eq, carries, or_false] at hx
        refine Or.inr (Or.inl ?_)
        rw [Migrate.remL_next, decide_eq_true_eq]
        exact hx
      · exact hsame _ (by rw [hm, Migrate.insideL_next]; rfl) hst
    | leave hm hle =>
      injection hst with hst
      refine quiet rfl rfl rfl .wait hst ?_ (fun j k _ _ hx => ?_) ?_
      · refine hback ⟨old.t.arr, old.copy, nw.t, c.sh.helpers, []⟩ rfl rfl hna rfl _ hle
      · rw [hm] at hx
        simp [remL, carries] at hx
      · have := cnt_update_sub (p := inTh) (f := c.th) (t := t)
          (x := some ⟨A.op, l', A.steps + 1⟩) (by rw [hA]; simp [inTh, hl, hm, inLoc, insideL])
          (by rw [← hst]; rfl)
        simp only
        rw [h.hel]
        omega
    | ret hm hle h0 =>
      injection hst with hst
      subst hst
      simp only at hle h0
      have hq := migT_quiet h.g ho hn hlw (s1 := ⟨old.t.arr, old.copy, nw.t, c.sh.helpers, []⟩) rfl rfl rfl
      refine upd_quiet h hA hex (by rw [hl]; rfl) (by rw [hl]; rfl) hq
        (fun _ _ => rfl)
        (fun le lt hx => ⟨h.g.hnd _ le lt hx, fun _ => (h.sync_le hA (by rw [hl]; rfl) hx).1⟩)
        ⟨by rw [migT_len]; exact hW.2.1, fun le' lt' hx => ?_⟩ (fun j k h1 h2 h3 => ?_)
        (hel_same h hA (by rw [hl, hm]; rfl)) (by rw [hl]; exact fun hx => hx)
        (fun _ _ _ _ => trivial)
      · rw [hhs, hy] at hx
        simp only [Option.some.injEq, Prod.mk.injEq] at hx
        obtain ⟨rfl, rfl⟩ := hx
        refine ⟨hW', hew, fun her => ?_⟩
        rw [hq.er] at her ⊢
        rw [hq.ar, hq.ar, hq.cp]
        have hle' : (ar c.sh c.sh.er).length ≤ cp c.sh c.sh.er := by
          rw [← her, ar_some ho, cp_some ho]
          exact hle
        refine ⟨hle', fun k hk hm' => ?_⟩
        obtain ⟨j, hj, hjk⟩ := List.getElem_of_mem hm'
        rcases h.bus j k (by omega) (by rw [List.getElem?_eq_getElem hj, hjk]) hk with h5 | ⟨u, B, hu, hB⟩
        · exact h5
        · exfalso
          have hnin : inTh (c.th u) = false := by
            by_contra hne
            have := cnt_pos (p := inTh) (f := c.th) (t := u) (by simpa using hne)
            have := h.hel
            omega
          rw [hu] at hnin
          cases hBl : B.loc with
          | mig y' w' m' c' =>
            rw [hBl] at hB
            simp only [inTh, hBl, inLoc] at hnin
            obtain ⟨g1, g2⟩ := not_busy_of_inside hnin j k
            rcases hB.2 with hB | hB
            · rw [g1] at hB; cases hB
            · exact g2 hB
          | _ => rw [hBl] at hB; exact hB.elim
      · rw [hl, hm] at h3
        exact absurd h3.2 (by simp [remL, carries])
  · cases hst

/-- The state after a step of an operation of table `lt`. -/
def tabT (s : Shared) (lt : Nat) (tb : Tab) (t' : ConcSet.Shared) : Shared :=
  { s with tabs := s.tabs.set lt { tb with t := t' } }

theorem tabT_quiet {s : Shared} (hg : GI a s) {lt : Nat} {tb : Tab} (htb : s.tabs[lt]? = some tb)
    {t' : ConcSet.Shared} (ha : t'.a = tb.t.a) (harr : t'.arr = tb.t.arr) :
    Quiet s (tabT s lt tb t') := by
  obtain ⟨hlt, _⟩ := List.getElem?_eq_some_iff.1 htb
  refine ⟨by simp [tabT], fun v => ?_, fun v => ?_, fun v => ?_, rfl, Nat.le_refl _, hg.tr_lt,
    Nat.le_refl _⟩
  · rw [ar_set (s' := tabT s lt tb t') hlt rfl]
    split
    · rename_i h; rw [h, ar_some htb, ← harr]
    · rfl
  · rw [cp_set (s' := tabT s lt tb t') hlt rfl]
    split
    · rename_i h; rw [h, cp_some htb]
    · rfl
  · rw [mu_set (s' := tabT s lt tb t') hlt rfl]
    split
    · rename_i h; rw [h, mu_some htb, ← ha]
    · rfl

/-- A successful CAS of an insertion. -/
theorem cas_of_incr {s s' : ConcSet.Shared} {l : ConcSet.Loc} {k' : Nat}
    (h : ConcSet.step true s l = some (s', .inl (.incr k'))) :
    ∃ i cols, l = .cas k' i cols ∧ s.arr[i]? = some 0 ∧ s' = { s with arr := s.arr.set i k' } := by
  cases l with
  | cas k i cols =>
    simp only [ConcSet.step] at h
    split at h
    · cases h
    · rename_i prev hp
      split at h
      · rename_i h0
        simp only [Option.some.injEq, Prod.mk.injEq, Sum.inl.injEq, ConcSet.Loc.incr.injEq] at h
        obtain ⟨rfl, rfl⟩ := h
        exact ⟨i, cols, rfl, by rw [hp, h0], rfl⟩
      · split at h <;> simp at h
  | check k =>
    simp only [ConcSet.step] at h
    split at h
    · simp at h
    · split at h <;> simp at h
  | probe k i cols =>
    simp only [ConcSet.step] at h
    split at h
    · simp at h
    · split at h
      · cases h
      · split at h
        · simp at h
        · split at h <;> simp at h
  | incr k => simp [ConcSet.step] at h
  | look k i =>
    simp only [ConcSet.step] at h
    split at h
    · cases h
    · split at h
      · simp at h
      · split at h <;> simp at h

theorem int_tab (h : CI a c) (hA : c.th t = some A) {y : Nat} {l : ConcSet.Loc}
    (hl : A.loc = .tab y l) (hlate : ¬ Late c t)
    (hst : step c.sh (.tab y l) = some (s', .inl l')) : Goal a c t A s' l' := by
  intro hex
  simp only [step] at hst
  split at hst
  · cases hst
  rename_i le lt hy
  split at hst
  · cases hst
  rename_i tb htb
  have hli := h.li t A hA
  rw [hl] at hli
  obtain ⟨op0, st0, hloc⟩ := hli le lt hy
  rw [ar_some htb] at hloc
  have hsl := h.sync_le hA (by rw [hl]; rfl) (by rw [hl]; exact hy)
  have hltl : lt < c.sh.tabs.length := Nat.lt_of_le_of_lt hsl.2 h.g.er_lt
  obtain ⟨hna, ⟨p, hp⟩, hpath⟩ := h.g.tab lt hltl
  rw [mu_some htb] at hna
  rw [ar_some htb] at hp hpath
  obtain ⟨s1, out, hs1, hcase⟩ := ConcSet.step_cases true (A := ⟨op0, l, st0⟩) hp
    (by rw [hna]; exact hloc)
  simp only at hs1
  rw [hs1] at hst
  simp only [Option.some.injEq, Prod.mk.injEq] at hst
  obtain ⟨rfl, hst⟩ := hst
  change Exclusive ({ c with sh := tabT c.sh lt tb s1, th := _ } :
    Config n Shared Loc Op ConcSet.SetRet) at hex
  change CI a { c with sh := tabT c.sh lt tb s1, th := _ }
  have hset := setStep hs1
  have hhs : (tabT c.sh lt tb s1).hs = c.sh.hs := rfl
  cases out with
  | inr r =>
    have hfull : r = .full := by
      cases r with
      | full => rfl
      | bool b => simp at hst
    subst hfull
    have hs1t : s1 = tb.t := by
      cases hcase <;> rfl
    have hq := tabT_quiet h.g htb (t' := s1) (by rw [hs1t]) (by rw [hs1t])
    have hfin : ∀ k, setKey l = (true, k) → .g1 y (.restart k) = l' →
        CI a { c with sh := tabT c.sh lt tb s1,
                      th := Function.update c.th t (some ⟨A.op, l', A.steps + 1⟩) } := by
      rintro k hk rfl
      exact upd_quiet h hA hex (by rw [hl]; rfl) (by rw [hl]; exact hk.symm) hq (fun _ _ => rfl)
        (fun le lt hx => ⟨h.g.hnd _ le lt hx, fun _ => (h.sync_le hA (by rw [hl]; rfl) hx).1⟩)
        trivial (by rw [hl]; exact fun _ _ _ _ hx => hx.elim) (hel_same h hA (by rw [hl]; rfl))
        (by rw [hl]; exact fun hx => hx.elim) (fun _ _ _ _ => trivial)
    rcases hset.2.2.1 _ rfl rfl with ⟨k, rfl⟩ | ⟨k, i, cols, rfl⟩
    · injection hst with hst
      exact hfin k rfl hst
    · injection hst with hst
      exact hfin k rfl hst
  | inl l1 =>
    injection hst with hst
    subst hst
    have hkey := hset.2.1 l1 rfl
    by_cases hincr : ∃ k, l1 = .incr k
    · obtain ⟨k, rfl⟩ := hincr
      obtain ⟨i, cols, rfl, hi0, hs1e⟩ := cas_of_incr hs1
      have hloc' := hloc
      simp only [ConcSet.LocOk] at hloc
      obtain ⟨hop, hk, d, hid, hpass, _⟩ := hloc
      have hpos : 0 < tb.t.arr.length := by rw [hp]; exact Nat.pow_pos (by omega)
      have hil : i < tb.t.arr.length := (List.getElem?_eq_some_iff.1 hi0).1
      have h0 : sl tb.t.arr (hash64 a k + d) = 0 := by
        rw [← sl_mod, ← hid, sl_getElem _ _ hil]
        exact (List.getElem?_eq_some_iff.1 hi0).2
      have hcpi : cp c.sh lt ≤ i := by
        by_contra hx
        exact hlate ⟨A, y, k, i, cols, le, lt, tb, hA, hl, hy, htb, hi0, by
          rw [cp_some htb] at hx; omega⟩
      have hlter : lt = c.sh.er := by
        by_contra hx
        have := (h.g.old lt (by omega)).1
        rw [ar_some htb] at this
        omega
      have hs1a : s1.a = tb.t.a := by rw [hs1e]
      have hs1r : s1.arr = tb.t.arr.set ((hash64 a k + d) % tb.t.arr.length) k := by rw [hs1e, hid]
      have har := ar_set (s' := tabT c.sh lt tb s1) (tb' := { tb with t := s1 }) hltl rfl
      have hcp : ∀ v, cp (tabT c.sh lt tb s1) v = cp c.sh v := by
        intro v
        rw [cp_set (s' := tabT c.sh lt tb s1) (tb' := { tb with t := s1 }) hltl rfl]
        split
        · rename_i hv; rw [hv, cp_some htb]
        · rfl
      have hmu : ∀ v, mu (tabT c.sh lt tb s1) v = mu c.sh v := by
        intro v
        rw [mu_set (s' := tabT c.sh lt tb s1) (tb' := { tb with t := s1 }) hltl rfl]
        split
        · rename_i hv; rw [hv, mu_some htb, hs1a]
        · rfl
      have hlen : (tabT c.sh lt tb s1).tabs.length = c.sh.tabs.length := by simp [tabT]
      have hext : AExt tb.t.arr s1.arr := by rw [hs1r]; exact AExt.set hpos h0
      have hin : k ∈ s1.arr := by
        rw [hs1r]
        exact List.mem_set (Nat.mod_lt _ hpos) _
      have he : Ext c.sh (tabT c.sh lt tb s1) := by
        refine ⟨by rw [hlen], fun v _ => ?_, fun v => by rw [hcp], Nat.le_refl _, Nat.le_refl _,
          Nat.le_refl _, fun j hj => ?_⟩
        · rw [har]
          split
          · rename_i hv; rw [hv, ar_some htb]; exact hext
          · exact AExt.refl _
        · rw [har, if_pos hlter.symm, ← hlter, ar_some htb, hs1e]
          rw [← hlter] at hj
          exact List.getElem?_set_ne (by omega)
      have hg : GI a (tabT c.sh lt tb s1) := by
        refine ⟨h.g.er_tr, by rw [hlen]; exact h.g.tr_lt, by rw [hlen]; exact h.g.last,
          h.g.er_ew, fun v hv => ?_, fun v hv => by rw [hcp]; exact h.g.cp0 v hv,
          fun hx => by rw [hcp]; exact h.g.cpl (by rw [hlen] at hx; exact hx),
          fun v hv => ?_, h.g.hnd⟩
        · rw [hlen] at hv
          rw [hmu, har]
          split
          · refine ⟨(h.g.tab v hv).1, ⟨p, by rw [hext.len, hp]⟩, ?_⟩
            simp only
            rw [hs1r]
            exact PathOk.set hpos hpath h0 hpass
          · exact h.g.tab v hv
        · have hv' : v < c.sh.er := hv
          have herr : (tabT c.sh lt tb s1).er = c.sh.er := rfl
          rw [herr, hcp, har v, if_neg (by omega)]
          obtain ⟨g1, g2⟩ := h.g.old v hv'
          exact ⟨g1, fun k hk hm => he.mem hk (g2 k hk hm)⟩
      refine upd_int h hA hex (by rw [hl]; rfl) (by rw [hl]; exact hkey) he rfl hlen hg (fun _ _ => rfl)
        (fun le lt hx _ => (h.sync_le hA (by rw [hl]; rfl) hx).1) (fun le' lt' hx => ?_)
        (by rw [hl]; exact fun _ _ _ _ hx => hx.elim) (fun j k h1 h2 h3 h4 => ?_)
        (hel_same h hA (by rw [hl]; rfl))
        (by rw [hl]; exact fun hx => hx.elim) (fun k' hk' hs _ => ?_)
      · rw [hhs, hy] at hx
        simp only [Option.some.injEq, Prod.mk.injEq] at hx
        obtain ⟨rfl, rfl⟩ := hx
        refine ⟨op0, 2 * d + 3, hop, hk, ?_, d, ?_, ?_, Nat.le_refl _⟩
        · rw [har, if_pos rfl]; exact hin
        · rw [har, if_pos rfl]; exact hext.passed hpass
        · rw [har, if_pos rfl]
          simp only
          rw [hs1r, sl_set hpos, if_pos rfl]
      · rw [hcp] at h2
        omega
      · exfalso
        rw [hl] at hs
        have hm := hs.1 le lt hy
        have hkk : k' = k := by
          have := h.key_eq hA
          rw [hl] at this
          simp only [locKey, setKey] at this
          rw [hk', this]
        rw [ar_some htb, hkk] at hm
        exact PathOk.not_mem hpath hk h0 hpass hm
    · push Not at hincr
      have hmove : s1 = tb.t ∧ ConcSet.LocOk tb.t.a tb.t.arr ⟨op0, l1, st0 + 1⟩ := by
        cases hcase with
        | move _ g1 g2 g3 => exact ⟨rfl, g1⟩
        | cas k _ _ _ _ _ _ => exact absurd rfl (hincr k)
      obtain ⟨hs1t, hloc1⟩ := hmove
      have hq := tabT_quiet h.g htb (t' := s1) (by rw [hs1t]) (by rw [hs1t])
      refine upd_quiet h hA hex (by rw [hl]; rfl) (by rw [hl]; exact hkey) hq (fun _ _ => rfl)
        (fun le lt hx => ⟨h.g.hnd _ le lt hx, fun _ => (h.sync_le hA (by rw [hl]; rfl) hx).1⟩)
        (fun le' lt' hx => ?_) (by rw [hl]; exact fun _ _ _ _ hx => hx.elim)
        (hel_same h hA (by rw [hl]; rfl))
        (by rw [hl]; exact fun hx => hx.elim) (fun k' hk' hs _ => ?_)
      · rw [hhs, hy] at hx
        simp only [Option.some.injEq, Prod.mk.injEq] at hx
        obtain ⟨rfl, rfl⟩ := hx
        refine ⟨op0, st0 + 1, ?_⟩
        rw [hq.ar, ar_some htb]
        rw [hna] at hloc1
        exact hloc1
      · rw [hl] at hs
        exact ⟨fun le' lt' hx => by rw [hq.ar]; exact hs.1 le' lt' hx, hincr⟩

def setOpKey : ConcSet.SetOp → Bool × Nat
  | .insert k => (true, k)
  | .contains k => (false, k)

theorem setKey_of_loc {arr : List Nat} {op0 : ConcSet.SetOp} {l : ConcSet.Loc} {st0 : Nat}
    (hloc : ConcSet.LocOk a arr ⟨op0, l, st0⟩) : setKey l = setOpKey op0 := by
  cases l <;> simp only [ConcSet.LocOk] at hloc <;> rw [hloc.1] <;> rfl

theorem ret_tab (h : CI a c) (hA : c.th t = some A) {y : Nat} {l : ConcSet.Loc}
    (hl : A.loc = .tab y l) {r : ConcSet.SetRet}
    (hst : step c.sh (.tab y l) = some (s', .inr r))
    (hex : Exclusive ({ sh := s', th := Function.update c.th t none, hist := c.hist ++ [.res t A.op r] } :
      Config n Shared Loc Op ConcSet.SetRet)) :
    CI a { sh := s', th := Function.update c.th t none, hist := c.hist ++ [.res t A.op r] } := by
  simp only [step] at hst
  split at hst
  · cases hst
  rename_i le lt hy
  split at hst
  · cases hst
  rename_i tb htb
  have hli := h.li t A hA
  rw [hl] at hli
  obtain ⟨op0, st0, hloc⟩ := hli le lt hy
  rw [ar_some htb] at hloc
  have hsl := h.sync_le hA (by rw [hl]; rfl) (by rw [hl]; exact hy)
  have hltl : lt < c.sh.tabs.length := Nat.lt_of_le_of_lt hsl.2 h.g.er_lt
  obtain ⟨hna, ⟨p, hp⟩, hpath⟩ := h.g.tab lt hltl
  rw [mu_some htb] at hna
  rw [ar_some htb] at hp hpath
  obtain ⟨s1, out, hs1, hcase⟩ := ConcSet.step_cases true (A := ⟨op0, l, st0⟩) hp
    (by rw [hna]; exact hloc)
  simp only at hs1
  rw [hs1] at hst
  simp only [Option.some.injEq, Prod.mk.injEq] at hst
  obtain ⟨rfl, hst⟩ := hst
  change Exclusive ({ sh := tabT c.sh lt tb s1, th := _, hist := _ } :
    Config n Shared Loc Op ConcSet.SetRet) at hex
  change CI a { sh := tabT c.sh lt tb s1, th := _, hist := _ }
  have hset := setStep hs1
  have hop : setKey l = opKey A.op := by
    have := (h.lk t A hA).1
    rw [hl] at this
    exact this
  have hop0 : setKey l = setOpKey op0 := setKey_of_loc hloc
  have hk0 := (h.lk t A hA).2
  have hkey : (setKey l).2 = A.op.key := by rw [hop, opKey_snd]
  cases out with
  | inl l1 => simp at hst
  | inr r0 =>
    have hfin : ∀ (_ : r0 = r) (_ : s1.a = tb.t.a) (_ : s1.arr = tb.t.arr)
        (_ : ∀ i k b, A.op = .insert i k → r = .bool b → k ∈ tb.t.arr)
        (_ : A.op.key ∈ tb.t.arr → (∀ k', l ≠ .incr k') → r = right A.op),
        CI a { sh := tabT c.sh lt tb s1, th := Function.update c.th t none,
               hist := c.hist ++ [.res t A.op r] } := by
      intro _ g1 g2 g3 g4
      have hq := tabT_quiet h.g htb (t' := s1) g1 g2
      refine upd h t (locH A.loc) (fun B hB => ?_) (fun B hB => by cases hB) (Or.inl ⟨A, hA⟩) hex hq.ext
        (hq.gi h.g h.g.hnd) (fun _ _ => rfl)
        (fun le lt h1 _ => (h.sync_le hA (by rw [hl]; rfl) h1).1) (fun B hB => by cases hB)
        (bus_same h hA hq.ext hq.er (fun _ _ => rfl)
          (by rw [hl]; exact fun _ _ _ _ hx => hx.elim)
          (fun j k h1 h2 => by rw [hq.cp] at h2; omega)) ?_
        (gro_same h hA hq.er hq.len (fun _ _ => rfl) (by rw [hl]; exact fun hx => hx.elim))
        (fun k hk => ?_) (fun u k _ hx => before_append (by simp) hx) (fun B hB => by cases hB)
        (fun u op r' h1 h2 h3 he hno hack => ?_)
      · rw [hA] at hB
        injection hB with hB
        subst hB
        exact (h.lh t A hA).symm
      · show c.sh.helpers = _
        rw [cnt_update_same (by rw [hA]; simp [inTh, hl, inLoc]), h.hel]
      · obtain ⟨u, i, b, hu⟩ := hk
        rcases List.mem_append.1 hu with hu | hu
        · exact Or.inl ⟨u, i, b, hu⟩
        · rw [List.mem_singleton] at hu
          injection hu with hu1 hu2 hu3
          have hmem := g3 i k b hu2.symm hu3.symm
          have hk : k ≠ 0 := by
            rw [← hu2] at hk0
            exact hk0
          refine Or.inr ⟨hk, ?_⟩
          rw [hq.ar, hq.er]
          exact h.g.up hsl.2 hk (by rw [ar_some htb]; exact hmem)
      · rw [← List.cons_append, ← List.append_assoc] at he
        rcases append_singleton_split he with ⟨he1, he2⟩ | ⟨h3', he1⟩
        · injection he2 with he2 he3 he4
          subst he2
          subst he3
          rw [he4]
          have hls := h.ls u A hA ⟨h1, h2, A.op, he1.symm, hno, hack⟩
          rw [hl] at hls
          refine g4 ?_ hls.2
          have := hls.1 le lt hy
          rw [ar_some htb] at this
          exact this
        · rw [List.append_assoc, List.cons_append] at he1
          exact h.ret u op r' h1 h2 h3' he1 hno hack
    cases hcase with
    | fullGrow k _ _ =>
      exfalso
      rcases hset.2.2.1 _ rfl rfl with ⟨k, rfl⟩ | ⟨k, i, cols, rfl⟩ <;> simp at hst
    | fullFix k hx _ _ => cases hx
    | found k g1 g2 g3 =>
      have hr : ConcSet.SetRet.bool false = r := by simpa using hst
      simp only at g1 g2
      subst g1
      rw [hop0] at hop hkey
      simp only [setOpKey] at hop hkey
      refine hfin hr rfl rfl (fun i k' b hi hb => ?_) (fun _ _ => ?_)
      · rw [hi] at hkey
        simp only [Op.key] at hkey
        rw [← hkey]
        exact g2
      · cases hA' : A.op with
        | insert i k' => rw [← hr]; rfl
        | contains i k' => rw [hA'] at hop; simp [opKey] at hop
    | incr k g1 g2 g3 g4 =>
      have hr : ConcSet.SetRet.bool true = r := by simpa using hst
      simp only at g2 g3 g4
      subst g2
      rw [hop0] at hop hkey
      simp only [setOpKey] at hop hkey
      refine hfin hr rfl rfl (fun i k' b hi hb => ?_) (fun _ hx => ?_)
      · rw [hi] at hkey
        simp only [Op.key] at hkey
        rw [← hkey]
        exact g4
      · exact absurd g3 (hx k)
    | seen k g1 g2 g3 =>
      have hr : ConcSet.SetRet.bool true = r := by simpa using hst
      simp only at g1 g2
      subst g1
      rw [hop0] at hop hkey
      simp only [setOpKey] at hop hkey
      refine hfin hr rfl rfl (fun i k' b hi hb => ?_) (fun _ hx => ?_)
      · rw [hi] at hop; simp [opKey] at hop
      · cases hA' : A.op with
        | insert i k' => rw [hA'] at hop; simp [opKey] at hop
        | contains i k' => rw [← hr]; rfl
    | unseen k d g0 g1 g2 g3 g4 =>
      have hr : ConcSet.SetRet.bool false = r := by simpa using hst
      simp only at g1 g2 g3
      subst g1
      rw [hop0] at hop hkey
      simp only [setOpKey] at hop hkey
      refine hfin hr rfl rfl (fun i k' b hi hb => ?_) (fun hm _ => ?_)
      · rw [hi] at hop; simp [opKey] at hop
      · exfalso
        rw [← hkey] at hm
        rw [hna] at g2 g3
        exact PathOk.not_mem hpath g0 g2 g3 hm

end

theorem step_CI {a : Nat} {c c' : Config n Shared Loc Op ConcSet.SetRet} (h : CI a c)
    (hs : Step obj OkKey c c') (hex : Exclusive c') (hlate : ∀ t, Late c t → c'.th t = c.th t) :
    CI a c' := by
  cases hs with
  | call t op hidle hok =>
    refine upd h t op.handle (fun B hB => ?_) (fun B hB => ?_) (Or.inr ⟨_, rfl⟩) hex
      (Quiet.refl h.g).ext h.g (fun _ _ => rfl) (fun le lt h1 _ => ?_) (fun B hB => ?_)
      (fun j k h1 h2 h3 => ?_) ?_ (fun hx => ?_) (fun k hk => ?_)
      (fun u k hut hx => before_append (fun op' hx => by injection hx with hx; exact hut hx.symm) hx)
      (fun B hB _ => ?_) (fun u op' r h1 h2 h3 he hno hack => ?_)
    · rw [hidle] at hB; cases hB
    · injection hB with hB
      subst hB
      cases op <;> exact ⟨rfl, rfl, rfl, hok⟩
    · refine h.sy _ le lt h1 (fun u B hu hB => ?_)
      exfalso
      have hut : u ≠ t := by
        rintro rfl
        rw [hidle] at hu; cases hu
      exact hut (hex u t B ⟨op, start op, 0⟩ (by simp only [Function.update_of_ne hut]; exact hu)
        (by simp only [Function.update_self]; rfl) hB)
    · injection hB with hB
      subst hB
      cases op <;> trivial
    · rcases h.bus j k h1 h2 h3 with h4 | ⟨u, B, hu, hB⟩
      · exact Or.inl h4
      · have hut : u ≠ t := by
          rintro rfl
          rw [hidle] at hu; cases hu
        exact Or.inr ⟨u, B, by rw [Function.update_of_ne hut]; exact hu, hB⟩
    · rw [cnt_update_same (by rw [hidle]; cases op <;> rfl), h.hel]
    · obtain ⟨u, B, hu, hB⟩ := h.gro hx
      have hut : u ≠ t := by
        rintro rfl
        rw [hidle] at hu; cases hu
      exact ⟨u, B, by rw [Function.update_of_ne hut]; exact hu, hB⟩
    · obtain ⟨u, i, b, hu⟩ := hk
      exact Or.inl ⟨u, i, b, by simpa using hu⟩
    · injection hB with hB
      subst hB
      cases op <;> trivial
    · rw [← List.cons_append, ← List.append_assoc] at he
      rcases append_singleton_split he with ⟨he1, he2⟩ | ⟨h3', he1⟩
      · cases he2
      · rw [List.append_assoc, List.cons_append] at he1
        exact h.ret u op' r h1 h2 h3' he1 hno hack
  | internal t A s' l' hA hst =>
    have hnl : ¬ Late c t := by
      intro hx
      have := hlate t hx
      simp only [Function.update_self] at this
      rw [hA] at this
      simp at this
      have := congrArg Active.steps this
      simp at this
    change step c.sh A.loc = _ at hst
    cases hl : A.loc with
    | ins0 y k => rw [hl] at hst; exact int_ins0 h hA hl hst hex
    | con0 y k => rw [hl] at hst; exact int_con0 h hA hl hst hex
    | gt1 y cc => rw [hl] at hst; exact int_gt1 h hA hl hst hex
    | gt2 y cc => rw [hl] at hst; exact int_gt2 h hA hl hst hex
    | tab y l => rw [hl] at hst; exact int_tab h hA hl hnl hst hex
    | g1 y cc => rw [hl] at hst; exact int_g1 h hA hl hst hex
    | g2 y w cc => rw [hl] at hst; exact int_g2 h hA hl hst hex
    | mig y w m cc => rw [hl] at hst; exact int_mig h hA hl hst hex
    | g8 y w cc => rw [hl] at hst; exact int_g8 h hA hl hst hex
    | g9 y w cc => rw [hl] at hst; exact int_g9 h hA hl hst hex
  | ret t A s' r hA hst =>
    change step c.sh A.loc = _ at hst
    cases hl : A.loc with
    | tab y l => rw [hl] at hst; exact ret_tab h hA hl hst hex
    | _ =>
      rw [hl] at hst
      exfalso
      simp only [step] at hst
      repeat' (first | (split at hst) | (cases hst; done))
      all_goals simp at hst
      all_goals (try (split at hst <;> simp at hst))

theorem init_CI (a size m : Nat) (hs : 0 < size) :
    CI a (Config.init n (new a size m) : Config n Shared Loc Op ConcSet.SetRet) := by
  have hrep : ∀ (h le lt : Nat), (new a size m).hs[h]? = some (le, lt) → le = 0 ∧ lt = 0 := by
    intro h le lt hx
    simp only [new] at hx
    rw [List.getElem?_replicate] at hx
    split at hx
    · simp at hx; omega
    · cases hx
  have har : ∀ v, v < 1 → ar (new a size m) v = List.replicate (nextPow2 size) 0 := by
    intro v hv
    have : v = 0 := by omega
    subst this
    rfl
  refine ⟨⟨Nat.le_refl _, by simp [Config.init, new], by simp [Config.init, new], Nat.le_refl _,
    fun v hv => ?_, fun v hv => ?_, fun _ => rfl, fun v hv => ?_, fun h le lt hx => ?_⟩, ?_, ?_, ?_,
    fun h le lt hx _ => ?_, ?_, ?_, ?_, ?_, ?_, ?_, ?_⟩
  · have hv : v < 1 := hv
    have hv0 : v = 0 := by omega
    simp only [Config.init]
    rw [har v hv]
    refine ⟨by subst hv0; rfl, ?_, pathOk_replicate _ _⟩
    rw [List.length_replicate]
    exact nextPow2_isPow hs
  · have hv : 0 < v := hv
    simp only [Config.init, cp, new]
    rw [List.getElem?_eq_none (by simp; omega)]
  · exact absurd hv (Nat.not_lt_zero _)
  · have := hrep h le lt hx
    simp only [Config.init, new]
    omega
  · intro t u A B hA
    cases hA
  · intro t A hA; cases hA
  · intro t A hA; cases hA
  · have := hrep h le lt hx
    omega
  · intro t A hA; cases hA
  · intro j k hj
    exact absurd hj (Nat.not_lt_zero _)
  · simp only [Config.init, new]
    rw [cnt_eq_zero (fun t => rfl)]
  · intro hx
    simp [Config.init, new] at hx
  · rintro k ⟨u, i, b, hu⟩
    cases hu
  · intro t A hA; cases hA
  · intro t op r h1 h2 h3 he
    simp [Config.init] at he

theorem timely_CI {a size m : Nat} (hs : 0 < size) {c : Config n Shared Loc Op ConcSet.SetRet}
    (h : ReachTimely (new a size m) c) : CI a c := by
  induction h with
  | init => exact init_CI a size m hs
  | step _ hst hex hl ih => exact step_CI ih hst hex hl

end Growing
end Verif
