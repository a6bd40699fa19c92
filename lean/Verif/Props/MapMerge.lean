import Verif.Model.MapMerge
import Verif.Props.ConcMap

/-!
# Rehashing and merging concurrent maps (C123)
-/
namespace Verif
namespace ConcMap
open Conc

/-- Maps at rest: no key twice, every occupied slot has a value, and the counter is the number of keys. -/
structure Rest (m : Shared) : Prop where
  len : m.vals.length = m.keys.length
  nodup : (m.keys.filter (fun x => decide (x ≠ 0))).Nodup
  value : ∀ i k : Nat, m.keys[i]? = some k → k ≠ 0 → ∃ v, m.vals[i]? = some (some v)
  count : m.items = (m.keys.filter (fun x => decide (x ≠ 0))).length

/-- A map constructed and used by any number of threads is at rest when no thread is inside an operation. -/
theorem rest_of_execution {a size n : Nat} (hs : 1 ≤ size) {c : Config n Shared Loc MapOp MapRet} (h : Execution a size c) (hq : c.quiescent) :
    Rest c.sh := by
  obtain ⟨h1, h2, _, h4⟩ := C13_quiescent a size n hs c h hq
  obtain ⟨p, _, hi⟩ := exec_inv hs h
  exact ⟨hi.vlen, h1, fun i k h5 h6 => by obtain ⟨v, _, h7, _⟩ := h4 i k h5 h6; exact ⟨v, h7⟩, h2⟩

theorem mem_pairs {m : Shared} {k v : Nat} : (k, v) ∈ pairs m ↔ k ≠ 0 ∧ ∃ i : Nat, m.keys[i]? = some k ∧ m.vals[i]? = some (some v) := by
  unfold pairs
  rw [List.mem_filterMap]
  constructor
  · rintro ⟨⟨x, y⟩, hm, he⟩
    simp only at he
    split_ifs at he with h0
    rw [Option.map_eq_some_iff] at he
    obtain ⟨w, rfl, hw⟩ := he
    injection hw with h1 h2
    subst h1; subst h2
    obtain ⟨i, hi⟩ := List.mem_iff_getElem?.mp hm
    rw [List.getElem?_zip_eq_some] at hi
    exact ⟨h0, i, hi⟩
  · rintro ⟨h0, i, h1, h2⟩
    refine ⟨(k, some v), List.mem_iff_getElem?.mpr ⟨i, List.getElem?_zip_eq_some.mpr ⟨h1, h2⟩⟩, ?_⟩
    simp [h0]

private theorem fst_aux (ks : List Nat) : ∀ (vs : List (Option Nat)), vs.length = ks.length →
    (∀ i k : Nat, ks[i]? = some k → k ≠ 0 → ∃ v, vs[i]? = some (some v)) →
    ((ks.zip vs).filterMap fun s => if s.1 = 0 then none else s.2.map fun v => (s.1, v)).map Prod.fst = ks.filter (fun x => decide (x ≠ 0)) := by
  induction ks with
  | nil => intro vs _ _; rfl
  | cons k ks ih =>
    intro vs hl hv
    obtain ⟨v, vs, rfl⟩ := List.exists_cons_of_length_pos (l := vs) (by rw [hl]; simp)
    have ih := ih vs (by simpa using hl) (fun i k h h' => by simpa using hv (i + 1) k (by simpa using h) h')
    by_cases h0 : k = 0
    · simp only [List.zip_cons_cons, List.filterMap_cons, h0, if_true]
      rw [List.filter_cons_of_neg (by simp)]
      exact ih
    · obtain ⟨w, hw⟩ := hv 0 k (by simp) h0
      simp only [List.getElem?_cons_zero, Option.some.injEq] at hw
      subst hw
      simp only [List.zip_cons_cons, List.filterMap_cons, h0, if_false, Option.map_some, List.map_cons]
      rw [List.filter_cons_of_pos (by simpa using h0), ih]

theorem Rest.fst {m : Shared} (h : Rest m) : (pairs m).map Prod.fst = m.keys.filter (fun x => decide (x ≠ 0)) :=
  fst_aux m.keys m.vals h.len h.value

theorem Rest.pairs_nodup {m : Shared} (h : Rest m) : (pairs m).Nodup := by
  have := h.nodup
  rw [← h.fst] at this
  exact this.of_map

theorem Rest.unique {m : Shared} (h : Rest m) {k v w : Nat} (hv : (k, v) ∈ pairs m) (hw : (k, w) ∈ pairs m) : v = w := by
  have hn := h.nodup
  rw [← h.fst] at hn
  have := List.inj_on_of_nodup_map hn hv hw rfl
  simpa using this

theorem Rest.items_eq {m : Shared} (h : Rest m) : m.items = (pairs m).length := by
  rw [h.count, ← h.fst, List.length_map]

theorem pairs_le (m : Shared) : (pairs m).length ≤ m.keys.length := by
  unfold pairs
  refine (List.length_filterMap_le _ _).trans ?_
  rw [List.length_zip]
  exact min_le_left _ _

/-! ### Histories -/

variable {n : Nat}

private theorem mem_called {h : List (Ev n MapOp MapRet)} {op : MapOp} : op ∈ called h ↔ ∃ t, Ev.inv t op ∈ h := by
  unfold called
  rw [List.mem_filterMap]
  constructor
  · rintro ⟨e, he, h1⟩
    cases e with
    | inv t op' =>
      simp only [Option.some.injEq] at h1
      subst h1
      exact ⟨t, he⟩
    | res t op' r => simp at h1
  · rintro ⟨t, ht⟩
    exact ⟨_, ht, rfl⟩

private theorem called_append (h h' : List (Ev n MapOp MapRet)) : called (h ++ h') = called h ++ called h' := List.filterMap_append

/-- Threads inside of an operation. -/
private def busy : Option (Active Loc MapOp) → Bool := Option.isSome

/-- Counting: calls are finished or running; the counter counts finished calls only; every call is finished or running; insertions return
no values. -/
private structure Hist {a : Nat} (c : Config n Shared Loc MapOp MapRet) : Prop where
  bal : (called c.hist).length = returned c.hist + Conc.cnt busy c.th
  items : c.sh.items + Conc.cnt busy c.th ≤ (called c.hist).length
  done : ∀ t op, Ev.inv t op ∈ c.hist → (∃ r, Ev.res t op r ∈ c.hist) ∨ ∃ A, c.th t = some A ∧ A.op = op
  ret : ∀ t k v r, Ev.res t (.insert k v) r ∈ c.hist → (∃ b, r = .bool b) ∨ r = .full
  full : 2 * (called c.hist).length ≤ c.sh.keys.length → ∀ t op, Ev.res t op .full ∉ c.hist

private theorem hist_ok {a size : Nat} (hs : 1 ≤ size) {c : Config n Shared Loc MapOp MapRet} (h : Execution a size c) : Hist (a := a) c := by
  refine h.induct (P := fun c => Hist (a := a) c) ?_ ?_
  · refine ⟨?_, ?_, ?_, ?_, ?_⟩
    · simp [Config.init, called, returned, cnt_eq_zero (p := busy) (f := fun _ : Fin n => (none : Option (Active Loc MapOp))) (fun _ => rfl)]
    · simp [Config.init, called, new, cnt_eq_zero (p := busy) (f := fun _ : Fin n => (none : Option (Active Loc MapOp))) (fun _ => rfl)]
    · intro t op h; simp [Config.init] at h
    · intro t k v r h; simp [Config.init] at h
    · intro _ t op h; simp [Config.init] at h
  · intro c c' hr hi hst
    obtain ⟨p, _, hm⟩ := exec_inv hs hr
    cases hst with
    | call t op hidle hok =>
      have hc := cnt_update_add (p := busy) (f := c.th) (t := t) (x := some ⟨op, (obj a).start op, 0⟩) (by rw [hidle]; rfl) rfl
      have e1 : called (c.hist ++ [Ev.inv t op]) = called c.hist ++ [op] := by rw [called_append]; rfl
      have e2 : returned (c.hist ++ [Ev.inv t op]) = returned c.hist := by simp [returned, List.countP_append]
      refine ⟨?_, ?_, ?_, ?_, ?_⟩
      · simp only
        rw [e1, e2, hc, List.length_append, List.length_singleton, hi.bal]
        omega
      · have := hi.items
        simp only
        rw [e1, hc, List.length_append, List.length_singleton]
        omega
      · intro u op' hu
        simp only [List.mem_append, List.mem_singleton] at hu
        rcases hu with hu | hu
        · rcases hi.done u op' hu with ⟨r, h1⟩ | ⟨B, h1, h2⟩
          · exact Or.inl ⟨r, by simp [h1]⟩
          · right
            refine ⟨B, ?_, h2⟩
            simp only
            rw [Function.update_of_ne, h1]
            rintro rfl
            rw [hidle] at h1; cases h1
        · injection hu with h1 h2
          subst h1; subst h2
          exact Or.inr ⟨_, Function.update_self _ _ _, rfl⟩
      · intro u k v r hu
        exact hi.ret u k v r (by simpa using hu)
      · intro hl u op' hu
        simp only at hl hu
        rw [e1, List.length_append] at hl
        exact hi.full (by omega) u op' (by simpa using hu)
    | internal t A s' l' hth hst =>
      have hc := cnt_update_same (p := busy) (f := c.th) (t := t) (x := some ⟨A.op, l', A.steps + 1⟩) (by rw [hth]; rfl)
      have hA := hm.loc t A hth
      rw [← hm.ha] at hA
      rcases step_cases hm.len (by rw [hm.ha]; exact hm.path) hm.vlen hA with ⟨s1, out, hs1, hcase⟩ | ⟨hs1, _, _⟩
      case inr => rw [show (obj a).step c.sh A.loc = step c.sh A.loc from rfl, hs1] at hst; cases hst
      rw [show (obj a).step c.sh A.loc = step c.sh A.loc from rfl, hs1] at hst
      simp only [Option.some.injEq, Prod.mk.injEq] at hst
      obtain ⟨rfl, rfl⟩ := hst
      have hsame : s1.items = c.sh.items ∧ s1.keys.length = c.sh.keys.length := by
        cases hcase <;> simp
      refine ⟨?_, ?_, ?_, hi.ret, ?_⟩
      · simp only; rw [hc]; exact hi.bal
      · simp only; rw [hc, hsame.1]; exact hi.items
      · intro u op' hu
        rcases hi.done u op' hu with h1 | ⟨B, h1, h2⟩
        · exact Or.inl h1
        · right
          by_cases hut : u = t
          · subst hut
            rw [hth] at h1
            injection h1 with h1
            subst h1
            exact ⟨_, Function.update_self _ _ _, h2⟩
          · exact ⟨B, by simp only [Function.update_of_ne hut]; exact h1, h2⟩
      · simp only; rw [hsame.2]; exact hi.full
    | ret t A s' r hth hst =>
      have hc := cnt_update_sub (p := busy) (f := c.th) (t := t) (x := none) (by rw [hth]; rfl) rfl
      have hA := hm.loc t A hth
      rw [← hm.ha] at hA
      rcases step_cases hm.len (by rw [hm.ha]; exact hm.path) hm.vlen hA with ⟨s1, out, hs1, hcase⟩ | ⟨hs1, _, _⟩
      case inr => rw [show (obj a).step c.sh A.loc = step c.sh A.loc from rfl, hs1] at hst; cases hst
      rw [show (obj a).step c.sh A.loc = step c.sh A.loc from rfl, hs1] at hst
      simp only [Option.some.injEq, Prod.mk.injEq] at hst
      obtain ⟨rfl, rfl⟩ := hst
      have e1 : called (c.hist ++ [Ev.res t A.op r]) = called c.hist := by rw [called_append]; simp [called]
      have e2 : returned (c.hist ++ [Ev.res t A.op r]) = returned c.hist + 1 := by simp [returned, List.countP_append]
      have hsame : s1.items ≤ c.sh.items + 1 ∧ s1.keys.length = c.sh.keys.length := by
        cases hcase <;> simp
      refine ⟨?_, ?_, ?_, ?_, ?_⟩
      · have := hi.bal
        simp only
        rw [e1, e2]
        omega
      · have := hi.items
        simp only
        rw [e1]
        omega
      · intro u op' hu
        have hu : Ev.inv u op' ∈ c.hist := by simpa using hu
        rcases hi.done u op' hu with ⟨r', h1⟩ | ⟨B, h1, h2⟩
        · exact Or.inl ⟨r', by simp [h1]⟩
        · by_cases hut : u = t
          · subst hut
            rw [hth] at h1
            injection h1 with h1
            subst h1
            exact Or.inl ⟨r, by rw [← h2]; simp⟩
          · exact Or.inr ⟨B, by simp only [Function.update_of_ne hut]; exact h1, h2⟩
      · intro u k v r' hu
        simp only [List.mem_append, List.mem_singleton] at hu
        rcases hu with hu | hu
        · exact hi.ret u k v r' hu
        · injection hu with h1 h2 h3
          subst h3
          cases hcase with
          | full => exact Or.inr rfl
          | storeLost => exact Or.inl ⟨_, rfl⟩
          | incr => exact Or.inl ⟨_, rfl⟩
          | absent k' hop => rw [← h2] at hop; cases hop
          | found k' v' i' _ hop => rw [← h2] at hop; cases hop
      · intro hl u op' hu
        simp only at hl hu
        rw [e1, hsame.2] at hl
        rw [List.mem_append, List.mem_singleton] at hu
        rcases hu with hu | hu
        · exact hi.full hl u op' hu
        · injection hu with h1 h2 h3
          subst h3
          have hit := hi.items
          have hpos : 0 < Conc.cnt busy c.th := cnt_pos (t := t) (by rw [hth]; rfl)
          have : ¬ c.sh.items ≥ c.sh.keys.length / 2 := by omega
          unfold step at hs1
          split at hs1 <;> (try simp only at hs1) <;> (repeat' split at hs1) <;> simp_all <;> grind

/-- Values written after the prefix `h1` of the history. -/
private structure Late (h1 : List (Ev n MapOp MapRet)) (c : Config n Shared Loc MapOp MapRet) : Prop where
  ops : ∀ h2, c.hist = h1 ++ h2 → ∀ t A, c.th t = some A → Ev.inv t A.op ∈ h2
  done : ∀ h2, c.hist = h1 ++ h2 → ∀ t op, Ev.inv t op ∈ h2 → (∃ r, Ev.res t op r ∈ h2) ∨ ∃ A, c.th t = some A ∧ A.op = op
  vals : ∀ h2, c.hist = h1 ++ h2 → ∀ k, (∃ t v b, Ev.res t (.insert k v) (.bool b) ∈ h2) ∨ (∃ t A v, c.th t = some A ∧ A.loc = .incr k v) →
    ∃ (i v : Nat) (t' : Fin n), c.sh.keys[i]? = some k ∧ c.sh.vals[i]? = some (some v) ∧ Ev.inv t' (.insert k v) ∈ h2

private theorem append_last {α : Type} {l h1 h2 : List α} {e : α} (h : l ++ [e] = h1 ++ h2) :
    (h2 = [] ∧ l ++ [e] = h1) ∨ ∃ h2', h2 = h2' ++ [e] ∧ l = h1 ++ h2' := by
  rcases List.eq_nil_or_concat h2 with rfl | ⟨h2', y, rfl⟩
  · exact Or.inl ⟨rfl, by simpa using h⟩
  · rw [List.concat_eq_append, ← List.append_assoc] at h
    have := List.append_inj' h rfl
    have h3 := List.singleton_inj.1 this.2
    subst h3
    exact Or.inr ⟨h2', by simp, this.1⟩

private theorem late_ok {a size : Nat} (hs : 1 ≤ size) {h1 : List (Ev n MapOp MapRet)} (hcomp : returned h1 = (called h1).length)
    {c : Config n Shared Loc MapOp MapRet} (h : Execution a size c) : Late h1 c := by
  refine h.induct (P := fun c => Late h1 c) ?_ ?_
  · have hnil : ∀ h2, ([] : List (Ev n MapOp MapRet)) = h1 ++ h2 → h2 = [] := by
      intro h2 he
      have := he.symm
      rw [List.append_eq_nil_iff] at this
      exact this.2
    refine ⟨fun h2 _ t A hA => by simp [Config.init] at hA, fun h2 he t op ht => ?_, fun h2 he k hk => ?_⟩
    · rw [hnil h2 he] at ht
      cases ht
    simp only [Config.init] at hk
    have := hnil h2 he
    subst this
    rcases hk with ⟨t, v, b, hk⟩ | ⟨t, A, v, hk, _⟩
    · simp at hk
    · simp at hk
  · intro c c' hr hi hst
    have hr' : Execution a size c' := Reach.step hr hst
    -- while the history is the prefix, nothing runs
    have hidle : ∀ c : Config n Shared Loc MapOp MapRet, Execution a size c → c.hist = h1 → ∀ t, c.th t = none := by
      intro c hc he t
      have hb := (hist_ok hs hc).bal
      rw [he, hcomp] at hb
      by_contra hne
      have := cnt_pos (p := busy) (f := c.th) (t := t) (by
        unfold busy
        rwa [← Option.ne_none_iff_isSome])
      omega
    obtain ⟨p, _, hm⟩ := exec_inv hs hr
    have hempty : ∀ h2, c'.hist = h1 ++ h2 → h2 = [] → (∀ t A, c'.th t = some A → Ev.inv t A.op ∈ h2) ∧
        ∀ k, (∃ t v b, Ev.res t (.insert k v) (.bool b) ∈ h2) ∨ (∃ t A v, c'.th t = some A ∧ A.loc = .incr k v) →
          ∃ (i v : Nat) (t' : Fin n), c'.sh.keys[i]? = some k ∧ c'.sh.vals[i]? = some (some v) ∧ Ev.inv t' (.insert k v) ∈ h2 := by
      intro h2 he h0
      subst h0
      have hq := hidle c' hr' (by simpa using he)
      refine ⟨fun t A hA => (by rw [hq t] at hA; cases hA), fun k hk => ?_⟩
      rcases hk with ⟨t, v, b, hk⟩ | ⟨t, A, v, hk, _⟩
      · simp at hk
      · rw [hq t] at hk; cases hk
    cases hst with
    | call t op hidle' hok =>
      refine ⟨?_, ?_, ?_⟩
      · intro h2 he u A hA
        rcases append_last he with ⟨h0, _⟩ | ⟨h2', rfl, he'⟩
        · exact (hempty h2 he h0).1 u A hA
        · replace hA := upd_cases hA
          rcases hA with ⟨rfl, hA⟩ | ⟨_, hA⟩
          · injection hA with hA
            subst hA
            simp
          · have := hi.ops h2' he' u A hA
            simp [this]
      · intro h2 he u op' hu
        rcases append_last he with ⟨h0, _⟩ | ⟨h2', rfl, he'⟩
        · rw [h0] at hu; cases hu
        · rw [List.mem_append, List.mem_singleton] at hu
          rcases hu with hu | hu
          · rcases hi.done h2' he' u op' hu with ⟨r, h3⟩ | ⟨B, h3, h4⟩
            · exact Or.inl ⟨r, by simp [h3]⟩
            · refine Or.inr ⟨B, ?_, h4⟩
              simp only
              rw [Function.update_of_ne, h3]
              rintro rfl
              rw [hidle'] at h3; cases h3
          · injection hu with h3 h4
            subst h3; subst h4
            exact Or.inr ⟨_, Function.update_self _ _ _, rfl⟩
      · intro h2 he k hk
        rcases append_last he with ⟨h0, _⟩ | ⟨h2', rfl, he'⟩
        · exact (hempty h2 he h0).2 k hk
        · have hk' : (∃ t v b, Ev.res t (.insert k v) (.bool b) ∈ h2') ∨ (∃ t A v, c.th t = some A ∧ A.loc = .incr k v) := by
            rcases hk with ⟨u, v, b, hk⟩ | ⟨u, A, v, hA, hl⟩
            · exact Or.inl ⟨u, v, b, by simpa using hk⟩
            · replace hA := upd_cases hA
              rcases hA with ⟨rfl, hA⟩ | ⟨_, hA⟩
              · injection hA with hA
                subst hA
                cases op <;> cases hl
              · exact Or.inr ⟨u, A, v, hA, hl⟩
          obtain ⟨i, v, t', q1, q2, q3⟩ := hi.vals h2' he' k hk'
          exact ⟨i, v, t', q1, q2, by simp [q3]⟩
    | internal t A s' l' hth hst =>
      have hA := hm.loc t A hth
      rw [← hm.ha] at hA
      rcases step_cases hm.len (by rw [hm.ha]; exact hm.path) hm.vlen hA with ⟨s1, out, hs1, hcase⟩ | ⟨hs1, _, _⟩
      case inr => rw [show (obj a).step c.sh A.loc = step c.sh A.loc from rfl, hs1] at hst; cases hst
      rw [show (obj a).step c.sh A.loc = step c.sh A.loc from rfl, hs1] at hst
      simp only [Option.some.injEq, Prod.mk.injEq] at hst
      obtain ⟨rfl, rfl⟩ := hst
      refine ⟨?_, ?_, ?_⟩
      · intro h2 he u B hB
        replace hB := upd_cases hB
        rcases hB with ⟨rfl, hB⟩ | ⟨_, hB⟩
        · injection hB with hB
          subst hB
          exact hi.ops h2 he u A hth
        · exact hi.ops h2 he u B hB
      · intro h2 he u op' hu
        rcases hi.done h2 he u op' hu with h3 | ⟨B, h3, h4⟩
        · exact Or.inl h3
        · by_cases hut : u = t
          · subst hut
            rw [hth] at h3
            injection h3 with h3
            subst h3
            exact Or.inr ⟨_, Function.update_self _ _ _, h4⟩
          · exact Or.inr ⟨B, by simp only [Function.update_of_ne hut]; exact h3, h4⟩
      · intro h2 he k hk
        have hinv := hi.ops h2 he t A hth
        have old : ((∃ t v b, Ev.res t (.insert k v) (.bool b) ∈ h2) ∨ (∃ t A v, c.th t = some A ∧ A.loc = .incr k v)) ∨
            ∃ v, l' = .incr k v := by
          rcases hk with hk | ⟨u, B, v, hB, hl⟩
          · exact Or.inl (Or.inl hk)
          · replace hB := upd_cases hB
            rcases hB with ⟨rfl, hB⟩ | ⟨_, hB⟩
            · injection hB with hB
              subst hB
              exact Or.inr ⟨v, hl⟩
            · exact Or.inl (Or.inr ⟨u, B, v, hB, hl⟩)
        cases hcase with
        | move _ hl' hnp hnp2 =>
          rcases old with old | ⟨v, rfl⟩
          · exact hi.vals h2 he k old
          · cases hnp
        | cas k' v' d hk' hop h0 hp hnp =>
          rcases old with old | ⟨v, hv⟩
          · obtain ⟨i, v, t', q1, q2, q3⟩ := hi.vals h2 he k old
            refine ⟨i, v, t', ?_, q2, q3⟩
            simp only
            rw [List.getElem?_set_ne, q1]
            rintro rfl
            obtain ⟨k'', r1, r2, _⟩ := hm.vals _ v q2
            have hlt : (hash64 c.sh.a k' + d) % c.sh.keys.length < c.sh.keys.length := Nat.mod_lt _ hm.pos
            rw [List.getElem?_eq_getElem hlt, ← sl_getElem _ _ hlt, sl_mod, h0] at r1
            injection r1 with r1
            exact r2 r1.symm
          · cases hv
        | storeWon k' v' i' hk' hop hloc hki =>
          have hil : i' < c.sh.vals.length := by
            rw [hm.vlen]; exact (List.getElem?_eq_some_iff.1 hki).1
          rcases old with old | ⟨v, hv⟩
          · obtain ⟨i, v, t', q1, q2, q3⟩ := hi.vals h2 he k old
            by_cases hii : i' = i
            · subst hii
              rw [hki] at q1
              injection q1 with q1
              subst q1
              exact ⟨i', v', t, hki, by simp only [List.getElem?_set_self hil], by rw [← hop]; exact hinv⟩
            · exact ⟨i, v, t', q1, by simp only [List.getElem?_set_ne hii]; exact q2, q3⟩
          · injection hv with e1 e2
            subst e1
            exact ⟨i', v', t, hki, by simp only [List.getElem?_set_self hil], by rw [← hop]; exact hinv⟩
    | ret t A s' r hth hst =>
      have hA := hm.loc t A hth
      rw [← hm.ha] at hA
      rcases step_cases hm.len (by rw [hm.ha]; exact hm.path) hm.vlen hA with ⟨s1, out, hs1, hcase⟩ | ⟨hs1, _, _⟩
      case inr => rw [show (obj a).step c.sh A.loc = step c.sh A.loc from rfl, hs1] at hst; cases hst
      rw [show (obj a).step c.sh A.loc = step c.sh A.loc from rfl, hs1] at hst
      simp only [Option.some.injEq, Prod.mk.injEq] at hst
      obtain ⟨rfl, rfl⟩ := hst
      refine ⟨?_, ?_, ?_⟩
      · intro h2 he u B hB
        rcases append_last he with ⟨h0, _⟩ | ⟨h2', rfl, he'⟩
        · exact (hempty h2 he h0).1 u B hB
        · replace hB := upd_cases hB
          rcases hB with ⟨rfl, hB⟩ | ⟨_, hB⟩
          · cases hB
          · have := hi.ops h2' he' u B hB
            simp [this]
      · intro h2 he u op' hu
        rcases append_last he with ⟨h0, _⟩ | ⟨h2', rfl, he'⟩
        · rw [h0] at hu; cases hu
        · have hu : Ev.inv u op' ∈ h2' := by simpa using hu
          rcases hi.done h2' he' u op' hu with ⟨r', h3⟩ | ⟨B, h3, h4⟩
          · exact Or.inl ⟨r', by simp [h3]⟩
          · by_cases hut : u = t
            · subst hut
              rw [hth] at h3
              injection h3 with h3
              subst h3
              exact Or.inl ⟨r, by rw [← h4]; simp⟩
            · exact Or.inr ⟨B, by simp only [Function.update_of_ne hut]; exact h3, h4⟩
      · intro h2 he k hk
        rcases append_last he with ⟨h0, _⟩ | ⟨h2', rfl, he'⟩
        · exact (hempty h2 he h0).2 k hk
        · have hinv := hi.ops h2' he' t A hth
          have old : ((∃ t v b, Ev.res t (.insert k v) (.bool b) ∈ h2') ∨ (∃ t A v, c.th t = some A ∧ A.loc = .incr k v)) ∨
              ∃ v b, A.op = .insert k v ∧ r = .bool b := by
            rcases hk with ⟨u, v, b, hk⟩ | ⟨u, B, v, hB, hl⟩
            · simp only [List.mem_append, List.mem_singleton] at hk
              rcases hk with hk | hk
              · exact Or.inl (Or.inl ⟨u, v, b, hk⟩)
              · injection hk with e1 e2 e3
                exact Or.inr ⟨v, b, e2.symm, e3.symm⟩
            · replace hB := upd_cases hB
              rcases hB with ⟨rfl, hB⟩ | ⟨_, hB⟩
              · cases hB
              · exact Or.inl (Or.inr ⟨u, B, v, hB, hl⟩)
          have keep : ((∃ t v b, Ev.res t (.insert k v) (.bool b) ∈ h2') ∨ (∃ t A v, c.th t = some A ∧ A.loc = .incr k v)) → s1.keys = c.sh.keys →
              s1.vals = c.sh.vals → ∃ (i v : Nat) (t' : Fin n), s1.keys[i]? = some k ∧ s1.vals[i]? = some (some v) ∧
                Ev.inv t' (.insert k v) ∈ h2' ++ [Ev.res t A.op r] := by
            intro o e1 e2
            obtain ⟨i, v, t', q1, q2, q3⟩ := hi.vals h2' he' k o
            exact ⟨i, v, t', by rw [e1]; exact q1, by rw [e2]; exact q2, by simp [q3]⟩
          cases hcase with
          | full k' v' hop hnp =>
            rcases old with old | ⟨v, b, _, hb⟩
            · exact keep old rfl rfl
            · cases hb
          | storeLost k' v' i' hk' hop hloc hki =>
            have hil : i' < c.sh.vals.length := by
              rw [hm.vlen]; exact (List.getElem?_eq_some_iff.1 hki).1
            have new : k = k' → ∃ (i v : Nat) (t' : Fin n), c.sh.keys[i]? = some k ∧ (c.sh.vals.set i' (some v'))[i]? = some (some v) ∧
                Ev.inv t' (.insert k v) ∈ h2' ++ [Ev.res t A.op (.bool false)] := by
              rintro rfl
              exact ⟨i', v', t, hki, List.getElem?_set_self hil, by rw [← hop]; simp [hinv]⟩
            rcases old with old | ⟨v, b, ho, _⟩
            · obtain ⟨i, v, t', q1, q2, q3⟩ := hi.vals h2' he' k old
              by_cases hii : i' = i
              · subst hii
                rw [hki] at q1
                injection q1 with q1
                exact new q1.symm
              · exact ⟨i, v, t', q1, by simp only [List.getElem?_set_ne hii]; exact q2, by simp [q3]⟩
            · rw [hop] at ho
              injection ho with e1 e2
              exact new e1.symm
          | incr k' v' hop hloc =>
            rcases old with old | ⟨v, b, ho, _⟩
            · exact keep old rfl rfl
            · rw [hop] at ho
              injection ho with e1 e2
              subst e1
              exact keep (Or.inr ⟨t, A, v', hth, hloc⟩) rfl rfl
          | absent k' hop hnk hnp =>
            rcases old with old | ⟨v, b, _, hb⟩
            · exact keep old rfl rfl
            · cases hb
          | found k' v' i' hk' hop hki hvi hnp =>
            rcases old with old | ⟨v, b, _, hb⟩
            · exact keep old rfl rfl
            · cases hb

/-! ### The loops -/

private theorem key_ne {l : List (Nat × Nat)} (hl : ∀ x ∈ l, x.1 ≠ 0) : ∀ op, op ∈ calls l → op.key ≠ 0 := by
  intro op hop
  unfold calls at hop
  rw [List.mem_map] at hop
  obtain ⟨x, hx, rfl⟩ := hop
  exact hl x hx

private theorem pairs_ne (m : Shared) : ∀ x ∈ pairs m, x.1 ≠ 0 := fun x hx => (mem_pairs (m := m) (k := x.1) (v := x.2)).mp hx |>.1

private theorem mem_calls {l : List (Nat × Nat)} {k v : Nat} : MapOp.insert k v ∈ calls l ↔ (k, v) ∈ l := by
  unfold calls
  rw [List.mem_map]
  constructor
  · rintro ⟨x, hx, he⟩
    injection he with h1 h2
    rw [← h1, ← h2]
    exact hx
  · intro h
    exact ⟨_, h, rfl⟩

/-- What a finished loop leaves, if the table has two slots per call. -/
private theorem loop_ok {a size : Nat} (hs : 1 ≤ size) {c : Config n Shared Loc MapOp MapRet} (h : Execution a size c) (hq : c.quiescent)
    {l : List (Nat × Nat)} (hl : (called c.hist).Perm (calls l)) (hlen : 2 * l.length ≤ size) :
    Rest c.sh ∧ (∀ k v, (k, v) ∈ pairs c.sh → (k, v) ∈ l) ∧ (∀ k v, (k, v) ∈ l → ∃ w, (k, w) ∈ pairs c.sh) ∧
    ∀ k v, (k, v) ∈ l → ∃ t b, Ev.inv t (.insert k v) ∈ c.hist ∧ Ev.res t (.insert k v) (.bool b) ∈ c.hist := by
  have hr := rest_of_execution hs h hq
  obtain ⟨_, _, h3, h4⟩ := C13_quiescent a size n hs c h hq
  obtain ⟨p, hp, hm⟩ := exec_inv hs h
  have hh := hist_ok hs h
  have hlenc : (called c.hist).length = l.length := by rw [hl.length_eq, calls, List.length_map]
  have hfull := hh.full (by
    have := le_nextPow2 size
    rw [hm.len, ← hp, hlenc]
    omega)
  have hdone : ∀ k v, (k, v) ∈ l → ∃ t b, Ev.inv t (.insert k v) ∈ c.hist ∧ Ev.res t (.insert k v) (.bool b) ∈ c.hist := by
    intro k v hkv
    obtain ⟨t, ht⟩ := mem_called.mp (hl.mem_iff.mpr (mem_calls.mpr hkv))
    rcases hh.done t _ ht with ⟨r, h1⟩ | ⟨A, h1, _⟩
    · rcases hh.ret t k v r h1 with ⟨b, rfl⟩ | rfl
      · exact ⟨t, b, ht, h1⟩
      · exact absurd h1 (hfull t _)
    · rw [hq t] at h1; cases h1
  refine ⟨hr, ?_, ?_, hdone⟩
  · intro k v hkv
    obtain ⟨h0, i, hi, hv⟩ := mem_pairs.mp hkv
    obtain ⟨w, t, hw, ht⟩ := h4 i k hi h0
    rw [hv] at hw
    simp only [Option.some.injEq] at hw
    subst hw
    exact mem_calls.mp (hl.mem_iff.mp (mem_called.mpr ⟨t, ht⟩))
  · intro k v hkv
    obtain ⟨t, b, _, h1⟩ := hdone k v hkv
    have hk := h3 t k v b h1
    have hk0 := (hm.lose t k v b h1).1
    obtain ⟨i, hi⟩ := List.mem_iff_getElem?.mp hk
    obtain ⟨w, hw⟩ := hr.value i k hi hk0
    exact ⟨w, mem_pairs.mpr ⟨hk0, i, hi, hw⟩⟩

/-- **C123.** `unsafe_rehash` with room for twice the number of entries: whatever the threads do, the map afterwards has the same entries,
and is at rest. -/
theorem C123_rehash {m : Shared} (hm : Rest m) {newSize : Nat} (h1 : 1 ≤ newSize) (h2 : 2 * m.items ≤ newSize)
    {c : Config n Shared Loc MapOp MapRet} (h : Rehash m newSize c) :
    Rest c.sh ∧ (∀ k v, (k, v) ∈ pairs c.sh ↔ (k, v) ∈ pairs m) ∧ c.sh.items = m.items := by
  obtain ⟨hr, hq, hp⟩ := h
  have he : Execution m.a newSize c := reach_mono (key_ne (pairs_ne m)) hr
  obtain ⟨l1, l2, l3, _⟩ := loop_ok h1 he hq hp (by rw [← hm.items_eq]; exact h2)
  have hiff : ∀ k v, (k, v) ∈ pairs c.sh ↔ (k, v) ∈ pairs m := by
    intro k v
    refine ⟨l2 k v, fun hkv => ?_⟩
    obtain ⟨w, hw⟩ := l3 k v hkv
    rwa [hm.unique hkv (l2 k w hw)]
  refine ⟨l1, hiff, ?_⟩
  rw [l1.items_eq, hm.items_eq]
  exact ((List.perm_ext_iff_of_nodup l1.pairs_nodup hm.pairs_nodup).mpr fun x => hiff x.1 x.2).length_eq

/-- **C123.** `unsafe_merge(other, filter)`: the keys are exactly those of both maps that are not in the filter, once each; the value of a
key is one of its values in the two maps; so it is the only possible one if the maps have no conflicting entries. -/
theorem C123_filter {m other : Shared} {F : Nat → Bool} (h0 : 1 ≤ m.keys.length) {c : Config n Shared Loc MapOp MapRet} (h : MergeFilter m other F c) :
    Rest c.sh ∧ (∀ k, (∃ v, (k, v) ∈ pairs c.sh) ↔ F k = false ∧ ∃ v, (k, v) ∈ pairs m ∨ (k, v) ∈ pairs other) ∧
    (∀ k v, (k, v) ∈ pairs c.sh → (k, v) ∈ pairs m ∨ (k, v) ∈ pairs other) ∧
    (Rest m → Rest other → (∀ k v w, (k, v) ∈ pairs m → (k, w) ∈ pairs other → v = w) →
      ∀ k v, (k, v) ∈ pairs c.sh ↔ F k = false ∧ ((k, v) ∈ pairs m ∨ (k, v) ∈ pairs other)) := by
  obtain ⟨hr, hq, hp⟩ := h
  have hne : ∀ x ∈ pairs m ++ pairs other, x.1 ≠ 0 := by
    intro x hx
    rw [List.mem_append] at hx
    exact hx.elim (pairs_ne m x) (pairs_ne other x)
  have he : Execution m.a (mergeSize m other) c := reach_mono (key_ne hne) hr
  have hsz : 2 * ((pairs m ++ pairs other).filter fun x => !F x.1).length ≤ mergeSize m other := by
    have e1 := List.length_filter_le (fun x : Nat × Nat => !F x.1) (pairs m ++ pairs other)
    have e2 := pairs_le m
    have e3 := pairs_le other
    rw [List.length_append] at e1
    unfold mergeSize
    omega
  obtain ⟨l1, l2, l3, _⟩ := loop_ok (by unfold mergeSize; omega) he hq hp hsz
  have hmem : ∀ k v, (k, v) ∈ ((pairs m ++ pairs other).filter fun x => !F x.1) ↔ F k = false ∧ ((k, v) ∈ pairs m ∨ (k, v) ∈ pairs other) := by
    intro k v
    rw [List.mem_filter, List.mem_append]
    simp only [Bool.not_eq_true']
    exact and_comm
  refine ⟨l1, ?_, fun k v hkv => ((hmem k v).mp (l2 k v hkv)).2, ?_⟩
  · intro k
    constructor
    · rintro ⟨v, hv⟩
      have := (hmem k v).mp (l2 k v hv)
      exact ⟨this.1, v, this.2⟩
    · rintro ⟨hF, v, hv⟩
      exact l3 k v ((hmem k v).mpr ⟨hF, hv⟩)
  · intro rm ro hagree k v
    refine ⟨fun hkv => (hmem k v).mp (l2 k v hkv), fun hkv => ?_⟩
    obtain ⟨w, hw⟩ := l3 k v ((hmem k v).mpr hkv)
    have hvw : v = w := by
      rcases hkv.2 with h1 | h1 <;> rcases ((hmem k w).mp (l2 k w hw)).2 with h2 | h2
      · exact rm.unique h1 h2
      · exact hagree k v w h1 h2
      · exact (hagree k w v h2 h1).symm
      · exact ro.unique h1 h2
    rwa [hvw]

/-- **C123.** `unsafe_merge(other)`: the keys are exactly those of both maps, once each; a key has its value in `other` if it is there, otherwise
its value in the map itself. -/
theorem C123_merge {m other : Shared} (rm : Rest m) (ro : Rest other) (h0 : 1 ≤ m.keys.length) {c : Config n Shared Loc MapOp MapRet}
    (h : Merge m other c) :
    Rest c.sh ∧ ∀ k v, (k, v) ∈ pairs c.sh ↔ (k, v) ∈ pairs other ∨ ((k, v) ∈ pairs m ∧ ∀ w, (k, w) ∉ pairs other) := by
  obtain ⟨h1, h2, hr, hq, hh, hcomp, hp1, hp2⟩ := h
  have hne : ∀ x ∈ pairs m ++ pairs other, x.1 ≠ 0 := by
    intro x hx
    rw [List.mem_append] at hx
    exact hx.elim (pairs_ne m x) (pairs_ne other x)
  have he : Execution m.a (mergeSize m other) c := reach_mono (key_ne hne) hr
  have hs1 : 1 ≤ mergeSize m other := by unfold mergeSize; omega
  have hp : (called c.hist).Perm (calls (pairs m ++ pairs other)) := by
    rw [hh, called_append]
    unfold calls
    rw [List.map_append]
    exact hp1.append hp2
  have hsz : 2 * (pairs m ++ pairs other).length ≤ mergeSize m other := by
    have e2 := pairs_le m
    have e3 := pairs_le other
    rw [List.length_append]
    unfold mergeSize
    omega
  obtain ⟨l1, l2, l3, l4⟩ := loop_ok hs1 he hq hp hsz
  have hlate := late_ok hs1 hcomp he
  have hfirst := hist_ok hs1 he
  obtain ⟨p, hpp, hmi⟩ := exec_inv hs1 he
  -- the value of a key of `other`
  have hother : ∀ k w, (k, w) ∈ pairs other → (k, w) ∈ pairs c.sh := by
    intro k w hkw
    obtain ⟨t, ht⟩ := mem_called.mp (hp2.mem_iff.mpr (mem_calls.mpr hkw))
    -- the call for it returned in the second part
    have hres : ∃ t v b, Ev.res t (.insert k v) (.bool b) ∈ h2 := by
      rcases hlate.done h2 hh t _ ht with ⟨r, h3⟩ | ⟨A, h3, _⟩
      · have h4 : Ev.res t (.insert k w) r ∈ c.hist := by rw [hh]; simp [h3]
        rcases hfirst.ret t k w r h4 with ⟨b, rfl⟩ | rfl
        · exact ⟨t, w, b, h3⟩
        · refine absurd h4 (hfirst.full ?_ t _)
          rw [hmi.len, ← hpp, hp.length_eq, calls, List.length_map]
          exact hsz.trans (le_nextPow2 _)
      · rw [hq t] at h3; cases h3
    obtain ⟨i, v, t', q1, q2, q3⟩ := hlate.vals h2 hh k (Or.inl hres)
    have hv : (k, v) ∈ pairs other := mem_calls.mp (hp2.mem_iff.mp (mem_called.mpr ⟨t', q3⟩))
    rw [ro.unique hkw hv]
    exact mem_pairs.mpr ⟨pairs_ne other _ hkw, i, q1, q2⟩
  refine ⟨l1, fun k v => ⟨fun hkv => ?_, ?_⟩⟩
  · by_cases hx : ∃ w, (k, w) ∈ pairs other
    · obtain ⟨w, hw⟩ := hx
      left
      rwa [l1.unique hkv (hother k w hw)]
    · rcases List.mem_append.mp (l2 k v hkv) with h3 | h3
      · exact Or.inr ⟨h3, fun w hw => hx ⟨w, hw⟩⟩
      · exact Or.inl h3
  · rintro (hkv | ⟨hkv, hno⟩)
    · exact hother k v hkv
    · obtain ⟨w, hw⟩ := l3 k v (List.mem_append.mpr (Or.inl hkv))
      rcases List.mem_append.mp (l2 k w hw) with h3 | h3
      · rwa [rm.unique hkv h3]
      · exact absurd h3 (hno w)

/-! ### Executions -/

private theorem run {a size : Nat} {l : List MapOp} {sched : List (Act n MapOp)} {s : Shared} {h : List (Ev n MapOp MapRet)}
    (hx : (exec (obj a) (fun op => decide (op ∈ l)) (Config.init n (new a size)) sched).map
      (fun c => (c.sh.keys, c.sh.vals, c.sh.items, c.sh.a, c.hist, decide (∀ t, (c.th t).isNone))) = some (s.keys, s.vals, s.items, s.a, h, true)) :
    ∃ c : Config n Shared Loc MapOp MapRet, Reach (obj a) (fun op => op ∈ l) (new a size) c ∧ c.quiescent ∧ c.sh = s ∧ c.hist = h := by
  cases he : exec (obj a) (fun op => decide (op ∈ l)) (Config.init n (new a size)) sched with
  | none => rw [he] at hx; cases hx
  | some c =>
    rw [he] at hx
    simp only [Option.map_some, Option.some.injEq, Prod.mk.injEq, decide_eq_true_eq] at hx
    obtain ⟨h1, h2, h3, h4, h5, h6⟩ := hx
    refine ⟨c, reach_mono (by intro op h; simpa using h) (exec_reach .init he), ?_, ?_, h5⟩
    · intro t
      exact Option.isNone_iff_eq_none.mp (h6 t)
    · cases s
      cases hc : c.sh
      rw [hc] at h1 h2 h3 h4
      simp only at h1 h2 h3 h4
      subst h1 h2 h3 h4
      rfl

/-- Uninterrupted insertion by a thread that takes `m` steps. -/
private def ins (t : Fin n) (k v m : Nat) : List (Act n MapOp) := .call t (.insert k v) :: List.replicate m (.run t)

private theorem np4 : nextPow2 4 = 4 := nextPow2_pow 2
private theorem np8 : nextPow2 8 = 8 := nextPow2_pow 3
private theorem np16 : nextPow2 16 = 16 := nextPow2_pow 4

/-- A map of capacity 8 with three entries. -/
private def m8 : Shared := ⟨[0, 0, 2, 0, 0, 1, 0, 3], [none, none, some 8, none, none, some 7, none, some 9], 3, 5⟩
/-- A map of capacity 4 with one entry. -/
private def ma : Shared := ⟨[0, 1, 0, 0], [none, some 7, none, none], 1, 5⟩
/-- A map of capacity 4 with two entries. -/
private def mb : Shared := ⟨[0, 1, 2, 0], [none, some 9, some 8, none], 2, 5⟩

private theorem m8_reach : ∃ c : Config 2 Shared Loc MapOp MapRet, Execution 5 8 c ∧ c.quiescent ∧ c.sh = m8 := by
  obtain ⟨c, h1, h2, h3, _⟩ := run (n := 2) (a := 5) (size := 8) (s := m8) (l := [.insert 1 7, .insert 2 8, .insert 3 9])
    (sched := ins 0 1 7 5 ++ ins 1 2 8 5 ++ ins 0 3 9 5)
    (h := [.inv 0 (.insert 1 7), .res 0 (.insert 1 7) (.bool true), .inv 1 (.insert 2 8), .res 1 (.insert 2 8) (.bool true),
      .inv 0 (.insert 3 9), .res 0 (.insert 3 9) (.bool true)]) (by unfold new; rw [np8]; rfl)
  exact ⟨c, reach_mono (by decide) h1, h2, h3⟩

private theorem ma_reach : ∃ c : Config 2 Shared Loc MapOp MapRet, Execution 5 4 c ∧ c.quiescent ∧ c.sh = ma := by
  obtain ⟨c, h1, h2, h3, _⟩ := run (n := 2) (a := 5) (size := 4) (s := ma) (l := [.insert 1 7]) (sched := ins 0 1 7 5)
    (h := [.inv 0 (.insert 1 7), .res 0 (.insert 1 7) (.bool true)]) (by unfold new; rw [np4]; rfl)
  exact ⟨c, reach_mono (by decide) h1, h2, h3⟩

private theorem mb_reach : ∃ c : Config 2 Shared Loc MapOp MapRet, Execution 5 4 c ∧ c.quiescent ∧ c.sh = mb := by
  obtain ⟨c, h1, h2, h3, _⟩ := run (n := 2) (a := 5) (size := 4) (s := mb) (l := [.insert 1 9, .insert 2 8])
    (sched := ins 0 1 9 5 ++ ins 1 2 8 5)
    (h := [.inv 0 (.insert 1 9), .res 0 (.insert 1 9) (.bool true), .inv 1 (.insert 2 8), .res 1 (.insert 2 8) (.bool true)])
    (by unfold new; rw [np4]; rfl)
  exact ⟨c, reach_mono (by decide) h1, h2, h3⟩

private theorem rest_m8 : Rest m8 := by
  obtain ⟨c, h1, h2, h3⟩ := m8_reach
  rw [← h3]
  exact rest_of_execution (by decide) h1 h2

private theorem rest_ma : Rest ma := by
  obtain ⟨c, h1, h2, h3⟩ := ma_reach
  rw [← h3]
  exact rest_of_execution (by decide) h1 h2

private theorem rest_mb : Rest mb := by
  obtain ⟨c, h1, h2, h3⟩ := mb_reach
  rw [← h3]
  exact rest_of_execution (by decide) h1 h2

/-- **C123.** The room is needed: a map with three entries, reached by insertions only, loses one of them by `unsafe_rehash(4)`, as the call
that finds the new table full is not repeated. -/
theorem C123_rehash_small : ∃ c c' : Config 2 Shared Loc MapOp MapRet, Execution 5 8 c ∧ c.quiescent ∧ Rehash c.sh 4 c' ∧
    (3, 9) ∈ pairs c.sh ∧ ∀ v, (3, v) ∉ pairs c'.sh := by
  obtain ⟨c, h1, h2, h3⟩ := m8_reach
  obtain ⟨c', g1, g2, g3, g4⟩ := run (n := 2) (a := 5) (size := 4) (s := ⟨[0, 1, 2, 0], [none, some 7, some 8, none], 2, 5⟩) (l := calls (pairs m8))
    (sched := ins 0 1 7 5 ++ ins 1 2 8 5 ++ ins 0 3 9 1)
    (h := [.inv 0 (.insert 1 7), .res 0 (.insert 1 7) (.bool true), .inv 1 (.insert 2 8), .res 1 (.insert 2 8) (.bool true),
      .inv 0 (.insert 3 9), .res 0 (.insert 3 9) .full]) (by unfold new; rw [np4]; rfl)
  refine ⟨c, c', h1, h2, ?_, ?_, ?_⟩
  · rw [h3]
    exact ⟨g1, g2, by rw [g4]; decide⟩
  · rw [h3]; decide
  · rw [g3]
    intro v hv
    rw [show pairs ⟨[0, 1, 2, 0], [none, some 7, some 8, none], 2, 5⟩ = [(1, 7), (2, 8)] by decide] at hv
    simp at hv

/-- **C123.** With a filter, the value of a key in both maps is not determined: merging the same two maps can keep either value. -/
theorem C123_filter_either : ∃ (m other : Shared), Rest m ∧ Rest other ∧ (1, 7) ∈ pairs m ∧ (1, 9) ∈ pairs other ∧
    (∃ c : Config 2 Shared Loc MapOp MapRet, MergeFilter m other (fun k => k == 2) c ∧ pairs c.sh = [(1, 7)]) ∧
    ∃ c : Config 2 Shared Loc MapOp MapRet, MergeFilter m other (fun k => k == 2) c ∧ pairs c.sh = [(1, 9)] := by
  refine ⟨ma, mb, rest_ma, rest_mb, by decide, by decide, ?_, ?_⟩
  · obtain ⟨c, g1, g2, g3, g4⟩ := run (n := 2) (a := 5) (size := 16)
      (s := ⟨(List.replicate 16 0).set 5 1, (List.replicate 16 none).set 5 (some 7), 1, 5⟩) (l := calls (pairs ma ++ pairs mb))
      (sched := ins 0 1 9 5 ++ ins 1 1 7 3)
      (h := [.inv 0 (.insert 1 9), .res 0 (.insert 1 9) (.bool true), .inv 1 (.insert 1 7), .res 1 (.insert 1 7) (.bool false)])
      (by unfold new; rw [np16]; rfl)
    refine ⟨c, ⟨g1, g2, ?_⟩, ?_⟩
    · rw [g4]; decide
    · rw [g3]; decide
  · obtain ⟨c, g1, g2, g3, g4⟩ := run (n := 2) (a := 5) (size := 16)
      (s := ⟨(List.replicate 16 0).set 5 1, (List.replicate 16 none).set 5 (some 9), 1, 5⟩) (l := calls (pairs ma ++ pairs mb))
      (sched := ins 0 1 7 5 ++ ins 1 1 9 3)
      (h := [.inv 0 (.insert 1 7), .res 0 (.insert 1 7) (.bool true), .inv 1 (.insert 1 9), .res 1 (.insert 1 9) (.bool false)])
      (by unfold new; rw [np16]; rfl)
    refine ⟨c, ⟨g1, g2, ?_⟩, ?_⟩
    · rw [g4]; decide
    · rw [g3]; decide

/-- A merge of two maps with a common key, the second part with two threads racing. -/
example : ∃ c : Config 2 Shared Loc MapOp MapRet, Merge ma mb c ∧ ∀ k v, (k, v) ∈ pairs c.sh ↔ (k, v) = (1, 9) ∨ (k, v) = (2, 8) := by
  obtain ⟨c, g1, g2, g3, g4⟩ := run (n := 2) (a := 5) (size := 16)
    (s := ⟨((List.replicate 16 0).set 5 1).set 10 2, ((List.replicate 16 none).set 5 (some 9)).set 10 (some 8), 2, 5⟩)
    (l := calls (pairs ma ++ pairs mb))
    (sched := ins 0 1 7 5 ++ [.call 1 (.insert 2 8), .call 0 (.insert 1 9), .run 0, .run 1, .run 1, .run 0, .run 0, .run 1, .run 1, .run 1])
    (h := [.inv 0 (.insert 1 7), .res 0 (.insert 1 7) (.bool true), .inv 1 (.insert 2 8), .inv 0 (.insert 1 9),
      .res 0 (.insert 1 9) (.bool false), .res 1 (.insert 2 8) (.bool true)])
    (by unfold new; rw [np16]; rfl)
  have hm : Merge ma mb c := ⟨[.inv 0 (.insert 1 7), .res 0 (.insert 1 7) (.bool true)],
    [.inv 1 (.insert 2 8), .inv 0 (.insert 1 9), .res 0 (.insert 1 9) (.bool false), .res 1 (.insert 2 8) (.bool true)], g1, g2, g4, by decide,
    by decide, by decide⟩
  refine ⟨c, hm, fun k v => ?_⟩
  rw [g3, show pairs ⟨((List.replicate 16 0).set 5 1).set 10 2, ((List.replicate 16 none).set 5 (some 9)).set 10 (some 8), 2, 5⟩ =
    [(1, 9), (2, 8)] by decide]
  simp

/-- A rehash with room, in another order than the slots. -/
example : ∃ c : Config 2 Shared Loc MapOp MapRet, Rehash m8 8 c ∧ Rest m8 ∧ 2 * m8.items ≤ 8 := by
  obtain ⟨c, g1, g2, g3, g4⟩ := run (n := 2) (a := 5) (size := 8) (s := m8) (l := calls (pairs m8))
    (sched := ins 0 3 9 5 ++ ins 1 1 7 5 ++ ins 0 2 8 5)
    (h := [.inv 0 (.insert 3 9), .res 0 (.insert 3 9) (.bool true), .inv 1 (.insert 1 7), .res 1 (.insert 1 7) (.bool true),
      .inv 0 (.insert 2 8), .res 0 (.insert 2 8) (.bool true)]) (by unfold new; rw [np8]; rfl)
  exact ⟨c, ⟨g1, g2, by rw [g4]; decide⟩, rest_m8, by decide⟩

end ConcMap
end Verif
