import Verif.Model.HashIter
import Verif.Props.HashSet
import Mathlib.Data.List.Perm.Basic
import Mathlib.Data.List.TakeDrop

/-!
# C05, C06: iteration over hash containers and parallel range splitting
-/
namespace Verif
namespace HashIter

/-- Specification: the stored keys in slot order. -/
def stored (arr : List Nat) : List Nat := arr.filter (fun x => x != 0)

/-- A legal iterator position: an occupied slot or the end. -/
def Pos (arr : List Nat) (i : Nat) : Prop :=
  i = arr.length ∨ ∃ h : i < arr.length, arr[i] ≠ 0

theorem advanceTest_spec (arr : List Nat) (i : Nat) (hi : i ≤ arr.length) :
    i ≤ advanceTest arr i ∧ Pos arr (advanceTest arr i) ∧
      stored (arr.drop (advanceTest arr i)) = stored (arr.drop i) ∧
      (∀ j, Pos arr j → i ≤ j → advanceTest arr i ≤ j) := by
  induction hn : arr.length - i generalizing i with
  | zero =>
    have : i = arr.length := by omega
    rw [advanceTest, dif_neg (by omega)]
    exact ⟨le_rfl, Or.inl this, rfl, fun j _ h => h⟩
  | succ n ih =>
    have hlt : i < arr.length := by omega
    rw [advanceTest, dif_pos hlt]
    split
    · rename_i h0
      obtain ⟨h1, h2, h3, h4⟩ := ih (i + 1) (by omega) (by omega)
      refine ⟨by omega, h2, ?_, fun j hj hij => ?_⟩
      · rw [h3, List.drop_eq_getElem_cons hlt, h0]
        simp [stored]
      · apply h4 j hj
        rcases Nat.eq_or_lt_of_le hij with he | he
        · subst he
          rcases hj with hj | ⟨_, hj⟩
          · omega
          · exact absurd h0 hj
        · exact he
    · rename_i h0
      exact ⟨le_rfl, Or.inr ⟨hlt, h0⟩, rfl, fun j _ h => h⟩

theorem stored_append (l m : List Nat) : stored (l ++ m) = stored l ++ stored m := by
  simp [stored]

/-- Values between two positions. -/
def seg (arr : List Nat) (b e : Nat) : List Nat := stored ((arr.take e).drop b)

theorem seg_nil (arr : List Nat) (b : Nat) : seg arr b b = [] := by
  have : (arr.take b).drop b = [] := by simp
  simp [seg, this, stored]

theorem seg_append (arr : List Nat) {b m e : Nat} (h1 : b ≤ m) (h2 : m ≤ e) :
    seg arr b m ++ seg arr m e = seg arr b e := by
  unfold seg
  rw [← stored_append]
  congr 1
  have e1 : arr.take m = (arr.take e).take m := by rw [List.take_take]; congr 1; omega
  rw [e1]
  have : (arr.take e).drop b = ((arr.take e).take m ++ (arr.take e).drop m).drop b := by
    rw [List.take_append_drop]
  rw [this]
  by_cases hm : m ≤ (arr.take e).length
  · rw [List.drop_append_of_le_length (by rw [List.length_take]; omega)]
  · have : (arr.take e).take m = arr.take e := List.take_of_length_le (by omega)
    rw [this]
    have h3 : (arr.take e).drop m = [] := List.drop_eq_nil_of_le (by omega)
    rw [h3, List.append_nil, List.append_nil]

theorem seg_full (arr : List Nat) : seg arr 0 arr.length = stored arr := by simp [seg]

theorem seg_skip (arr : List Nat) {i e : Nat} (he : e ≤ arr.length) (hi : i ≤ e)
    (hp : Pos arr e) : seg arr (advanceTest arr i) e = seg arr i e := by
  obtain ⟨h1, h2, h3, h4⟩ := advanceTest_spec arr i (by omega)
  have hle := h4 e hp hi
  have key : ∀ j, j ≤ e → stored (arr.drop j) = seg arr j e ++ stored (arr.drop e) := by
    intro j hj
    unfold seg
    rw [← stored_append]
    congr 1
    rw [List.drop_take]
    conv_lhs => rw [← List.take_append_drop (e - j) (arr.drop j)]
    rw [List.drop_drop]
    congr 2; omega
  have k1 := key i hi
  have k2 := key _ hle
  rw [h3, k1] at k2
  exact (List.append_cancel_right k2).symm

theorem forLoop_spec (arr : List Nat) {b e : Nat} (hb : Pos arr b) (he : Pos arr e)
    (hbe : b ≤ e) (hel : e ≤ arr.length) : Returns (fun n => forLoop arr n b e) (seg arr b e) := by
  induction hn : e - b using Nat.strongRecOn generalizing b with
  | _ n ih =>
    by_cases hq : b = e
    · subst hq
      rw [seg_nil]
      refine ⟨1, fun m hm => ?_⟩
      obtain ⟨m', rfl⟩ : ∃ m', m = m' + 1 := ⟨m - 1, by omega⟩
      simp [forLoop]
    · have hlt : b < arr.length := by omega
      have hne : arr[b] ≠ 0 := by
        rcases hb with h | ⟨_, h⟩
        · omega
        · exact h
      obtain ⟨h1, h2, h3, h4⟩ := advanceTest_spec arr (b + 1) (by omega)
      have hle := h4 e he (by omega)
      obtain ⟨n0, hn0⟩ := ih (e - next arr b) (by unfold next; omega) (b := next arr b) h2 hle rfl
      refine ⟨n0 + 1, fun m hm => ?_⟩
      obtain ⟨m', rfl⟩ : ∃ m', m = m' + 1 := ⟨m - 1, by omega⟩
      simp only [forLoop, if_neg hq, List.getElem?_eq_getElem hlt]
      have hx := hn0 m' (by omega)
      simp only at hx
      rw [hx]
      simp only [Res.bind_done]
      congr 1
      rw [next, seg_skip arr hel (by omega) he, ← seg_append arr (b := b) (m := b + 1) (e := e)
        (by omega) (by omega)]
      have : seg arr b (b + 1) = [arr[b]] := by
        unfold seg
        rw [List.take_add_one, List.drop_append_of_le_length (by simp; omega)]
        simp [stored, List.getElem?_eq_getElem hlt, hne]
      rw [this]; rfl

/-- **C05.** Iterating `begin()..end()` over a hash container returns and visits exactly the stored
keys, in slot order, each slot once. -/
theorem C05_iteration (arr : List Nat) :
    Returns (fun n => forLoop arr n (begin arr) («end» arr)) (arr.filter (fun x => x != 0)) := by
  obtain ⟨h1, h2, h3, h4⟩ := advanceTest_spec arr 0 (by omega)
  have := forLoop_spec arr (b := begin arr) (e := «end» arr) h2 (Or.inl rfl)
    (h4 _ (Or.inl rfl) (by omega)) le_rfl
  have e : seg arr (begin arr) («end» arr) = stored arr := by
    rw [begin, «end», seg_skip arr le_rfl (by simp) (Or.inl rfl), seg_full]
  rw [e] at this
  exact this

/-- **C05 (sets).** Iterating a set built by any client program visits each key of the denoted set
exactly once and nothing else, and `size()` is the number of iterations. -/
theorem C05_set_iteration (p : SetProg) (h : p.Valid) :
    ∃ s l, Returns (fun n => p.run n) s ∧
      Returns (fun n => forLoop s.arr n (begin s.arr) («end» s.arr)) l ∧
      l.Nodup ∧ l.toFinset = p.denote ∧ s.size = l.length := by
  obtain ⟨s, hr, hg, hk⟩ := p.run_spec h
  have hl : (s.arr.filter (fun x => x != 0)).toFinset = p.denote := by
    rw [← hk]; ext x; simp [LpSet.mem_keys, and_comm]
  have hlen : (s.arr.filter (fun x => x != 0)).length = p.denote.card := by
    rw [← hk, ← hg.items_eq, hg.cnt]
    exact (List.countP_eq_length_filter).symm
  refine ⟨s, _, hr, C05_iteration s.arr, hg.path.nodup, hl, ?_⟩
  · rw [hlen, ← hk]; exact hg.items_eq

example : (SetProg.insert (.insert (.new 5 2) 7) 4).Valid := by simp [SetProg.Valid]

/-- Well-formed ranges. -/
structure Range.Ok (arr : List Nat) (r : Range) : Prop where
  b : Pos arr r.b
  e : Pos arr r.e
  le : r.b ≤ r.e
  len : r.e ≤ arr.length
  mid : r.b < r.mid → r.mid < r.e → Pos arr r.mid

theorem Pos.le {arr : List Nat} {i : Nat} (h : Pos arr i) : i ≤ arr.length := by
  rcases h with h | ⟨h, _⟩ <;> omega

theorem setMidpoint_ok {arr : List Nat} {r : Range} (hb : Pos arr r.b) (he : Pos arr r.e)
    (hle : r.b ≤ r.e) : (setMidpoint arr r).Ok arr := by
  unfold setMidpoint
  have := he.le
  split
  · exact ⟨hb, he, hle, this, fun _ h => absurd h (Nat.lt_irrefl _)⟩
  · exact ⟨hb, he, hle, this, fun _ _ =>
      (advanceTest_spec arr (r.b + (r.e - r.b) / 2) (by omega)).2.1⟩

theorem setMidpoint_b (arr : List Nat) (r : Range) : (setMidpoint arr r).b = r.b := by
  unfold setMidpoint; split <;> rfl

theorem setMidpoint_e (arr : List Nat) (r : Range) : (setMidpoint arr r).e = r.e := by
  unfold setMidpoint; split <;> rfl

theorem visitAll_append (arr : List Nat) {xs ys : List Range} {l m : List Nat}
    (h1 : Returns (fun n => visitAll arr n xs) l) (h2 : Returns (fun n => visitAll arr n ys) m) :
    Returns (fun n => visitAll arr n (xs ++ ys)) (l ++ m) := by
  induction xs generalizing l with
  | nil =>
    have : l = [] := h1.unique (Returns.pure _)
    subst this
    simpa using h2
  | cons r rs ih =>
    obtain ⟨n1, hn1⟩ := h1
    obtain ⟨n2, hn2⟩ := h2
    have e1 := hn1 n1 le_rfl
    -- the first loop returns a fixed value from some fuel on
    refine ⟨max n1 n2, fun k hk => ?_⟩
    have a1 := hn1 k (by omega)
    have a2 := hn2 k (by omega)
    simp only [visitAll, List.cons_append] at a1 ⊢
    clear hn1 hn2 e1 ih
    cases hf : forLoop arr k r.b r.e with
    | ub => rw [hf] at a1; simp at a1
    | timeout => rw [hf] at a1; simp at a1
    | done vs =>
      rw [hf] at a1
      simp only [Res.bind_done] at a1 ⊢
      clear hf
      have gen : ∀ (zs : List Range) (ws : List Nat), visitAll arr k zs = .done ws →
          visitAll arr k (zs ++ ys) = .done (ws ++ m) := by
        intro zs
        induction zs with
        | nil =>
          intro ws h
          simp only [visitAll] at h
          injection h with h
          subst h
          simpa using a2
        | cons z zs ih2 =>
          intro ws h
          simp only [visitAll, List.cons_append] at h ⊢
          cases hz : forLoop arr k z.b z.e with
          | ub => rw [hz] at h; simp at h
          | timeout => rw [hz] at h; simp at h
          | done us =>
            rw [hz] at h
            simp only [Res.bind_done] at h ⊢
            cases hw : visitAll arr k zs with
            | ub => rw [hw] at h; simp at h
            | timeout => rw [hw] at h; simp at h
            | done w2 =>
              rw [hw] at h
              simp only [Res.bind_done] at h
              injection h with h
              subst h
              rw [ih2 w2 hw]
              simp
      cases hw : visitAll arr k rs with
      | ub => rw [hw] at a1; simp at a1
      | timeout => rw [hw] at a1; simp at a1
      | done w2 =>
        rw [hw] at a1
        simp only [Res.bind_done] at a1
        injection a1 with a1
        subst a1
        rw [gen rs w2 hw]
        simp

theorem splits_spec (arr : List Nat) {r : Range} {rs : List Range} (h : Splits arr r rs) :
    r.Ok arr → Returns (fun n => visitAll arr n rs) (seg arr r.b r.e) := by
  induction h with
  | leaf r =>
    intro hok
    have := forLoop_spec arr hok.b hok.e hok.le hok.len
    simp only [visitAll, Res.bind_done, List.append_nil]
    exact this.map id
  | node r xs ys hd _ _ ih1 ih2 =>
    intro hok
    simp only [Range.isDivisible, Bool.and_eq_true, decide_eq_true_eq] at hd
    have hm := hok.mid hd.1.1 hd.1.2
    have o1 : (r.splitNew arr).Ok arr := setMidpoint_ok hok.b hm (le_of_lt hd.1.1)
    have o2 : (r.splitOld arr).Ok arr := setMidpoint_ok hm hok.e (le_of_lt hd.1.2)
    have r1 := ih1 o1
    have r2 := ih2 o2
    have := visitAll_append arr r1 r2
    simp only [Range.splitNew, Range.splitOld, setMidpoint_b, setMidpoint_e] at this
    rw [seg_append arr (le_of_lt hd.1.1) (le_of_lt hd.1.2)] at this
    exact this

theorem init_ok (arr : List Nat) (grain : Nat) : (Range.init arr grain).Ok arr := by
  obtain ⟨h1, h2, h3, h4⟩ := advanceTest_spec arr 0 (by omega)
  exact setMidpoint_ok h2 (Or.inl rfl) (h4 _ (Or.inl rfl) (by omega))

/-- **C06.** For every container content, grain size and every way the scheduler splits the range
(`Splits`), running the body over all resulting ranges returns and visits exactly the stored keys,
each slot once. (The order in which the ranges run does not matter for what is visited; the
theorem lists them left to right.) -/
theorem C06_split_covers (arr : List Nat) (grain : Nat) (rs : List Range)
    (h : Splits arr (Range.init arr grain) rs) :
    Returns (fun n => visitAll arr n rs) (arr.filter (fun x => x != 0)) := by
  have := splits_spec arr h (init_ok arr grain)
  rw [Range.init, setMidpoint_b, setMidpoint_e] at this
  have e : seg arr (begin arr) («end» arr) = stored arr := by
    rw [begin, «end», seg_skip arr le_rfl (by simp) (Or.inl rfl), seg_full]
  simp only [e] at this
  exact this

/-- **C06 (any order).** The same with the ranges executed in an arbitrary order: the visited values
are a permutation of the stored keys. -/
theorem C06_split_covers_any_order (arr : List Nat) (grain : Nat) (rs rs' : List Range)
    (h : Splits arr (Range.init arr grain) rs) (hp : rs'.Perm rs) :
    ∃ l, Returns (fun n => visitAll arr n rs') l ∧ l.Perm (arr.filter (fun x => x != 0)) := by
  have hall := C06_split_covers arr grain rs h
  have key : ∀ (xs ys : List Range), xs.Perm ys → ∀ k l, visitAll arr k xs = .done l →
      ∃ l', visitAll arr k ys = .done l' ∧ l'.Perm l := by
    intro xs ys hxy
    induction hxy with
    | nil => intro k l h; exact ⟨l, h, List.Perm.refl _⟩
    | cons x _ ih =>
      intro k l h
      simp only [visitAll] at h ⊢
      cases hf : forLoop arr k x.b x.e with
      | ub => rw [hf] at h; simp at h
      | timeout => rw [hf] at h; simp at h
      | done vs =>
        rw [hf] at h
        simp only [Res.bind_done] at h ⊢
        rename_i l1 l2 _
        cases hw : visitAll arr k l1 with
        | ub => rw [hw] at h; simp at h
        | timeout => rw [hw] at h; simp at h
        | done ws =>
          rw [hw] at h
          simp only [Res.bind_done] at h
          injection h with h
          subst h
          obtain ⟨l', h1, h2⟩ := ih k ws hw
          rw [h1]
          exact ⟨vs ++ l', rfl, h2.append_left vs⟩
    | swap x y l0 =>
      intro k l h
      simp only [visitAll] at h ⊢
      cases hf : forLoop arr k x.b x.e <;> cases hg : forLoop arr k y.b y.e <;>
        rw [hf, hg] at h <;> simp only [Res.bind_done, Res.bind_ub, Res.bind_timeout] at h ⊢ <;>
        try (cases h)
      rename_i vx vy
      cases hw : visitAll arr k l0 with
      | ub => rw [hw] at h; simp at h
      | timeout => rw [hw] at h; simp at h
      | done ws =>
        rw [hw] at h
        simp only [Res.bind_done] at h ⊢
        injection h with h
        subst h
        exact ⟨_, rfl, by
          rw [← List.append_assoc, ← List.append_assoc]
          exact (List.perm_append_comm).append_right ws⟩
    | trans _ _ ih1 ih2 =>
      intro k l h
      obtain ⟨l1, h1, p1⟩ := ih1 k l h
      obtain ⟨l2, h2, p2⟩ := ih2 k l1 h1
      exact ⟨l2, h2, p2.trans p1⟩
  obtain ⟨n, hn⟩ := hall
  obtain ⟨l, hl, hlp⟩ := key rs rs' hp.symm n _ (hn n le_rfl)
  refine ⟨l, ⟨n, fun m hm => ?_⟩, hlp⟩
  -- more fuel does not change a returned value
  have mono : ∀ k b e vs, forLoop arr k b e = .done vs → ∀ m, k ≤ m → forLoop arr m b e = .done vs := by
    intro k
    induction k with
    | zero => intro b e vs h; simp [forLoop] at h
    | succ k ih =>
      intro b e vs h m hm
      obtain ⟨m', rfl⟩ : ∃ m', m = m' + 1 := ⟨m - 1, by omega⟩
      simp only [forLoop] at h ⊢
      split at h
      · rename_i hbe; rw [if_pos hbe]; exact h
      · rename_i hbe
        rw [if_neg hbe]
        cases hx : arr[b]? with
        | none => rw [hx] at h; simp at h
        | some v =>
          rw [hx] at h
          simp only at h ⊢
          cases hf : forLoop arr k (next arr b) e with
          | ub => rw [hf] at h; simp at h
          | timeout => rw [hf] at h; simp at h
          | done ws =>
            rw [hf] at h
            rw [ih _ _ _ hf m' (by omega)]
            exact h
  have mono2 : ∀ zs k ws, visitAll arr k zs = .done ws → ∀ m, k ≤ m → visitAll arr m zs = .done ws := by
    intro zs
    induction zs with
    | nil => intro k ws h m _; exact h
    | cons z zs ih =>
      intro k ws h m hm
      simp only [visitAll] at h ⊢
      cases hf : forLoop arr k z.b z.e with
      | ub => rw [hf] at h; simp at h
      | timeout => rw [hf] at h; simp at h
      | done us =>
        rw [hf] at h
        rw [mono _ _ _ _ hf m hm]
        simp only [Res.bind_done] at h ⊢
        cases hw : visitAll arr k zs with
        | ub => rw [hw] at h; simp at h
        | timeout => rw [hw] at h; simp at h
        | done w2 =>
          rw [hw] at h
          rw [ih k w2 hw m hm]
          exact h
  exact mono2 rs' n l hl m hm

example : (Range.init [3, 0, 4, 5] 1).isDivisible = true := by
  have h0 : advanceTest [3, 0, 4, 5] 0 = 0 := by rw [advanceTest]; simp
  have h2 : advanceTest [3, 0, 4, 5] 2 = 2 := by rw [advanceTest]; simp
  simp [Range.init, setMidpoint, begin, «end», Range.isDivisible, h0, h2]

end HashIter
end Verif
