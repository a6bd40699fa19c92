import Verif.Lemmas.BlockedArray2
import Mathlib.Data.List.Nodup

/-!
# C25, C26, C27, C72 (blocked arrays), C77: block lookup, iteration and range splitting
-/
namespace Verif
namespace BA2
variable {α : Type}

/-- Arrays a program can build from the constructor, `addBlock`, `merge` and assignments through
`at`, with the contents a reader of the documentation expects (`f i = none`: no such id). The ranges
of different blocks are disjoint; `allowEmpty` says whether blocks without ids may be added. -/
inductive Built (allowEmpty : Bool) (dflt : α) : List (Block α) → (Nat → Option α) → Prop where
  | new (lo hi : Nat) : (lo < hi ∨ allowEmpty = true ∧ lo = hi) →
      Built allowEmpty dflt [Block.new dflt lo hi]
        (fun i => if lo ≤ i ∧ i < hi then some dflt else none)
  | addBlock (bs bs' : List (Block α)) (f : Nat → Option α) (lo hi : Nat) :
      Built allowEmpty dflt bs f → (lo < hi ∨ allowEmpty = true ∧ lo = hi) →
      (∀ i, lo ≤ i → i < hi → f i = none) →
      SortOf (bs ++ [Block.new dflt lo hi]) bs' →
      Built allowEmpty dflt bs'
        (fun i => (f i).or (if lo ≤ i ∧ i < hi then some dflt else none))
  | merge (bs cs ds : List (Block α)) (f g : Nat → Option α) :
      Built allowEmpty dflt bs f → Built allowEmpty dflt cs g →
      (∀ i, f i = none ∨ g i = none) → SortOf (bs ++ cs) ds →
      Built allowEmpty dflt ds (fun i => (f i).or (g i))
  | write (bs bs' : List (Block α)) (f : Nat → Option α) (i hint : Nat) (v : α) :
      Built allowEmpty dflt bs f → hint < bs.length → write bs i hint v = .val bs' →
      Built allowEmpty dflt bs' (fun j => if j = i then some v else f j)

theorem built_ok {dflt : α} {bs : List (Block α)} {f : Nat → Option α}
    (h : Built false dflt bs f) : WF bs ∧ Holds bs f := by
  induction h with
  | new lo hi hl =>
    have hl' : lo < hi := by rcases hl with hl | ⟨hl, _⟩ <;> [exact hl; cases hl]
    exact ⟨new_wf dflt hl', new_holds dflt lo hi⟩
  | addBlock bs bs' f lo hi _ hl hdis hs ih =>
    have hl' : lo < hi := by rcases hl with hl | ⟨hl, _⟩ <;> [exact hl; cases hl]
    have hd : ∀ i, f i = none ∨ (if lo ≤ i ∧ i < hi then some dflt else none) = none := by
      intro i
      by_cases hc : lo ≤ i ∧ i < hi
      · exact Or.inl (hdis i hc.1 hc.2)
      · right; rw [if_neg hc]
    exact ⟨sort_wf ih.1 (new_wf dflt hl') ih.2 (new_holds dflt lo hi) hd hs,
      sort_holds ih.2 (new_holds dflt lo hi) hd hs⟩
  | merge bs cs ds f g _ _ hdis hs ih1 ih2 =>
    exact ⟨sort_wf ih1.1 ih2.1 ih1.2 ih2.2 hdis hs, sort_holds ih1.2 ih2.2 hdis hs⟩
  | write bs bs' f i hint v _ hh hw ih =>
    obtain ⟨_, k, b, hk, h1, h2, rfl⟩ := write_some ih.1 ih.2 hh hw
    exact ⟨set_wf ih.1 hk rfl rfl (by simp), write_holds ih.1 ih.2 hk h1 h2⟩

/-! ### C25 -/

/-- **C25** (reading). -/
theorem C25_at {dflt : α} {bs : List (Block α)} {f : Nat → Option α} (h : Built false dflt bs f)
    (i hint : Nat) (v : α) (hh : hint < bs.length) (hv : f i = some v) :
    read bs i hint = .val v :=
  read_mem (built_ok h).1 (built_ok h).2 hh hv

/-- **C25** (writing): assigning to an existing id succeeds; by `Built.write` and `C25_at` it changes
the element of that id and no other. -/
theorem C25_write {dflt : α} {bs : List (Block α)} {f : Nat → Option α}
    (h : Built false dflt bs f) (i hint : Nat) (v : α) (hh : hint < bs.length)
    (hi : (f i).isSome = true) :
    ∃ bs', write bs i hint v = .val bs' ∧ bs'.length = bs.length ∧
      ∀ j hint', hint' < bs.length →
        (j = i → read bs' j hint' = .val v) ∧
        (∀ w, j ≠ i → f j = some w → read bs' j hint' = .val w) := by
  obtain ⟨hwf, hf⟩ := built_ok h
  obtain ⟨bs', hw⟩ := write_ok hwf hf v hh hi
  have hb := Built.write bs bs' f i hint v h hh hw
  obtain ⟨_, k, b, hk, h1, h2, rfl⟩ := write_some hwf hf hh hw
  refine ⟨_, hw, List.length_set, fun j hint' hh' => ⟨fun e => ?_, fun w hne hj => ?_⟩⟩
  · exact C25_at hb j hint' v (by rw [List.length_set]; exact hh') (by simp [e])
  · exact C25_at hb j hint' w (by rw [List.length_set]; exact hh') (by simp [hne, hj])

/-- **C25** (`contains`). -/
theorem C25_contains {dflt : α} {bs : List (Block α)} {f : Nat → Option α}
    (h : Built false dflt bs f) (i hint : Nat) (hh : hint < bs.length) :
    contains bs i hint = .val (f i).isSome :=
  contains_spec (built_ok h).1 (built_ok h).2 hh

/-- **C25** (the hint a successful lookup leaves behind is again a legal hint). -/
theorem C25_hint {dflt : α} {bs : List (Block α)} {f : Nat → Option α}
    (h : Built false dflt bs f) (i hint k : Nat) (hh : hint < bs.length)
    (hl : locate bs i hint = .val k) : k < bs.length := by
  obtain ⟨hwf, hf⟩ := built_ok h
  by_cases hi : (f i).isSome
  · obtain ⟨k', b, hk, h1, h2⟩ := (hf.isSome_iff hwf i).mp hi
    rw [locate_mem hwf hh hk h1 h2] at hl
    cases hl
    exact (List.getElem?_eq_some_iff.mp hk).1
  · rcases locate_not_mem hwf hh (fun k b hk hx => hi ((hf.isSome_iff hwf i).mpr ⟨k, b, hk, hx⟩))
      with ⟨h1, _⟩ | ⟨s, b, h1, h2, _⟩
    · rw [h1] at hl; cases hl
    · rw [h1] at hl; cases hl
      exact (List.getElem?_eq_some_iff.mp h2).1

/-- **C25** (unknown ids): `at` throws for ids behind the last block, and reads out of bounds for
other ids in no block. -/
theorem C25_absent {dflt : α} {bs : List (Block α)} {f : Nat → Option α}
    (h : Built false dflt bs f) (i hint : Nat) (hh : hint < bs.length) (hv : f i = none) :
    ((∀ j, i < j → f j = none) → read bs i hint = .thrown) ∧
    (∀ j, i < j → (f j).isSome = true → read bs i hint = .ub) := by
  obtain ⟨hwf, hf⟩ := built_ok h
  rcases read_not_mem hwf hf hh hv with ⟨h1, h2⟩ | ⟨h1, b, hb, h2⟩
  · refine ⟨fun _ => h1, fun j hj hcon => ?_⟩
    exfalso
    obtain ⟨w, hw⟩ := Option.isSome_iff_exists.mp hcon
    obtain ⟨b, hb, _, h3, _⟩ := (hf j w).mp hw
    have := h2 b hb
    omega
  · refine ⟨fun hcon => ?_, fun _ _ _ => h1⟩
    exfalso
    have hp := hwf.pos b hb
    obtain ⟨w, hw⟩ := get_some (hwf.len b hb) (Nat.le_refl b.min) hp
    have := (hf b.min w).mpr ⟨b, hb, Nat.le_refl _, hp, hw⟩
    rw [hcon b.min h2] at this
    cases this

/-- Three blocks with a gap, added in decreasing order, one element assigned. -/
example : ∃ bs f, Built false (0 : Nat) bs f ∧ bs.length = 3 ∧ f 7 = some 42 ∧ f 5 = none ∧
    read bs 7 0 = .val 42 ∧ read bs 12 1 = .val 0 ∧ contains bs 5 2 = .val false := by
  let b1 := Block.new 0 10 13
  let b2 := Block.new 0 6 9
  let b3 := Block.new 0 1 3
  have h1 : Built false 0 [b1] _ := Built.new 10 13 (Or.inl (by decide))
  have h2 : Built false 0 [b2, b1] _ := Built.addBlock _ [b2, b1] _ 6 9 h1 (Or.inl (by decide))
    (fun i h1 h2 => if_neg (by omega)) ⟨List.Perm.swap _ _ _, by simp [b1, b2, Block.new]⟩
  have h3 : Built false 0 [b3, b2, b1] _ := Built.addBlock _ [b3, b2, b1] _ 1 3 h2
    (Or.inl (by decide))
    (fun i h1 h2 => by
      rw [if_neg (by omega), if_neg (by omega)]; rfl)
    ⟨(List.perm_append_comm : List.Perm ([b3] ++ [b2, b1]) ([b2, b1] ++ [b3])), by simp [b1, b2, b3, Block.new]⟩
  exact ⟨_, _, Built.write _ [b3, ⟨6, 9, [0, 42, 0]⟩, b1] _ 7 0 42 h3 (by decide) (by decide +kernel),
    by decide, by decide, by decide,
    by decide +kernel, by decide +kernel, by decide +kernel⟩

/-- **C25** fails once a block without ids has been added: the layout `[1,5) [5,5) [5,9)` comes from
`addBlock` calls with disjoint ranges, but id 5 is not found. -/
theorem C25_empty_block_violated : ∃ bs f, Built true (0 : Nat) bs f ∧ f 5 = some 0 ∧
    contains bs 5 0 = .val false ∧ read bs 5 0 = .ub := by
  let b1 := Block.new 0 1 5
  let b2 := Block.new 0 5 9
  let b3 := Block.new 0 5 5
  have h1 : Built true 0 [b1] _ := Built.new 1 5 (Or.inl (by decide))
  have h2 : Built true 0 [b1, b2] _ := Built.addBlock _ [b1, b2] _ 5 9 h1 (Or.inl (by decide))
    (fun i h1 h2 => if_neg (by omega)) ⟨List.Perm.refl _, by simp [b1, b2, Block.new]⟩
  have h3 : Built true 0 [b1, b3, b2] _ := Built.addBlock _ [b1, b3, b2] _ 5 5 h2
    (Or.inr ⟨rfl, rfl⟩) (fun i h1 h2 => by omega)
    ⟨List.Perm.cons _ (List.Perm.swap _ _ _), by simp [b1, b2, b3, Block.new]⟩
  exact ⟨_, _, h3, by decide, by decide +kernel, by decide +kernel⟩

/-- **C25**: a hint that is not a block number is undefined behaviour. -/
theorem C25_hint_violated (bs : List (Block α)) (i hint : Nat) (h : bs.length ≤ hint) :
    read bs i hint = .ub := by
  have : bs[hint]? = none := List.getElem?_eq_none h
  unfold read locate
  rw [this]

/-! ### C26 -/

/-- **C26** (unfiltered): every id with its element once, in ascending order. -/
theorem C26_all {dflt : α} {bs : List (Block α)} {f : Nat → Option α}
    (h : Built false dflt bs f) :
    ∃ l, Returns (iterAll bs) l ∧ l.Pairwise (fun a b => a.1 < b.1) ∧
      ∀ i v, (i, v) ∈ l ↔ f i = some v := by
  obtain ⟨hwf, hf⟩ := built_ok h
  obtain ⟨b, hb, hbin, hmin⟩ := beginPos_spec hwf
  obtain ⟨e, t, he, ht, het, hel⟩ := endPos_spec hwf
  obtain ⟨l, h1, h2, h3⟩ := forAll_spec hwf hf hel _ b (Or.inl hbin) (hmin e hel) (Nat.le_refl _)
  refine ⟨l, ?_, h2, fun i v => ?_⟩
  · refine h1.elim fun n hn => ⟨n, fun m hm => ?_⟩
    simp only [iterAll, hb, he, ofOpt, Res.bind_done]; exact hn m hm
  · rw [h3]
    refine ⟨fun h => h.2.2, fun hv => ?_⟩
    obtain ⟨c, hc, h1, h2, _⟩ := (hf i v).mp hv
    obtain ⟨k, hk⟩ := List.getElem?_of_mem hc
    have hin : In bs ⟨k, i⟩ := ⟨c, hk, h1, h2⟩
    exact ⟨hmin _ (Or.inl hin), by rw [het]; exact hin.lt_top hwf ht, hv⟩

/-- **C26** (filtered): exactly the valid elements, in ascending order. -/
theorem C26_valid {dflt : α} {bs : List (Block α)} {f : Nat → Option α}
    (h : Built false dflt bs f) (valid : α → Bool) :
    ∃ l, Returns (iterValid bs valid) l ∧ l.Pairwise (fun a b => a.1 < b.1) ∧
      ∀ i v, (i, v) ∈ l ↔ f i = some v ∧ valid v = true := by
  obtain ⟨hwf, hf⟩ := built_ok h
  obtain ⟨b, hb, hbin, hmin⟩ := beginPos_spec hwf
  obtain ⟨e, t, he, ht, het, hel⟩ := endPos_spec hwf
  obtain ⟨q, hq1, hq2, hq3, hq4⟩ := advT_spec hwf hf valid (Or.inl hbin)
  have heV : VLegal bs f valid e := Or.inr he
  obtain ⟨l, h1, h2, h3⟩ := forValid_spec hwf hf valid heV _ q hq2
    (by rw [het]; exact hq2.legal.le_top hwf ht) (Nat.le_refl _)
  have hbeg : Returns (fun n => beginValid bs valid n) q := by
    simpa only [beginValid, hb, ofOpt, Res.bind_done] using hq1
  refine ⟨l, ?_, h2, fun i v => ?_⟩
  · refine hbeg.bind (g := fun n b => (ofOpt (endPos bs)).bind fun e => forValid bs valid n b e) ?_
    simp only [he, ofOpt, Res.bind_done]; exact h1
  · rw [h3]
    refine ⟨fun h => h.2.2, fun ⟨hv, hvv⟩ => ?_⟩
    obtain ⟨c, hc, h1, h2, _⟩ := (hf i v).mp hv
    obtain ⟨k, hk⟩ := List.getElem?_of_mem hc
    have hin : In bs ⟨k, i⟩ := ⟨c, hk, h1, h2⟩
    refine ⟨?_, by rw [het]; exact hin.lt_top hwf ht, hv, hvv⟩
    by_contra hcon
    have := hq4 i v (hmin _ (Or.inl hin)) (by omega) hv
    rw [hvv] at this; cases this

/-- **C26** (`exact_size`): the number of elements an iteration visits. -/
theorem C26_exact_size {dflt : α} {bs : List (Block α)} {f : Nat → Option α}
    (h : Built false dflt bs f) (l : List (Nat × α)) (hl : Returns (iterAll bs) l) :
    exactSize bs = l.length := by
  obtain ⟨hwf, hf⟩ := built_ok h
  obtain ⟨l', h1, h2, h3⟩ := C26_all h
  have := h1.unique hl
  subst this
  let ids := bs.flatMap fun b => List.range' b.min (b.max - b.min)
  have hnd : ids.Nodup := by
    rw [List.nodup_flatMap]
    refine ⟨fun b _ => List.nodup_range', hwf.sorted.imp fun {a b} hab => ?_⟩
    intro x hx hx'
    rw [List.mem_range'_1] at hx hx'
    omega
  have hnd' : (l'.map Prod.fst).Nodup := by
    rw [List.Nodup, List.pairwise_map]
    exact h2.imp fun {a b} hab => Nat.ne_of_lt hab
  have hp : (l'.map Prod.fst).Perm ids := by
    rw [List.perm_ext_iff_of_nodup hnd' hnd]
    intro i
    simp only [List.mem_map, Prod.exists, exists_and_right, exists_eq_right, h3, ids,
      List.mem_flatMap, List.mem_range'_1]
    constructor
    · rintro ⟨v, hv⟩
      obtain ⟨b, hb, h1, h2, _⟩ := (hf i v).mp hv
      exact ⟨b, hb, h1, by omega⟩
    · rintro ⟨b, hb, h1, h2⟩
      have h2' : i < b.max := by have := hwf.pos b hb; omega
      obtain ⟨v, hv⟩ := get_some (hwf.len b hb) h1 h2'
      exact ⟨v, (hf i v).mpr ⟨b, hb, h1, h2', hv⟩⟩
  have := hp.length_eq
  rw [List.length_map] at this
  rw [this]
  simp [ids, exactSize, List.length_flatMap]

example : iterAll [Block.new 'a' 1 3, Block.new 'b' 6 7] 10 = .done [(1, 'a'), (2, 'a'), (6, 'b')] := by
  decide +kernel

example : iterValid [⟨1, 4, [0, 5, 0]⟩, ⟨6, 8, [0, 7]⟩] (fun x => decide (x ≠ 0)) 20
    = .done [(2, 5), (7, 7)] := by
  decide +kernel

/-- **C26** fails with an empty block in the middle: the iterator stops on its start and reads out of
bounds. -/
theorem C26_empty_block_violated : ∃ bs f, Built true (0 : Nat) bs f ∧ Undefined (iterAll bs) := by
  let b1 := Block.new 0 1 3
  let b2 := Block.new 0 5 6
  let b3 := Block.new 0 4 4
  have h1 : Built true 0 [b1] _ := Built.new 1 3 (Or.inl (by decide))
  have h2 : Built true 0 [b1, b2] _ := Built.addBlock _ [b1, b2] _ 5 6 h1 (Or.inl (by decide))
    (fun i h1 h2 => if_neg (by omega)) ⟨List.Perm.refl _, by simp [b1, b2, Block.new]⟩
  have h3 : Built true 0 [b1, b3, b2] _ := Built.addBlock _ [b1, b3, b2] _ 4 4 h2
    (Or.inr ⟨rfl, rfl⟩) (fun i h1 h2 => by omega)
    ⟨List.Perm.cons _ (List.Perm.swap _ _ _), by simp [b1, b2, b3, Block.new]⟩
  refine ⟨_, _, h3, 10, fun m hm => ?_⟩
  obtain ⟨k, rfl⟩ : ∃ k, m = k + 10 := ⟨m - 10, by omega⟩
  rfl

/-! ### C77 -/

/-- Execute a loop body over a list of ranges, collecting what it visits. -/
def visitAll (bs : List (Block α)) (valid : α → Bool) (fuel : Nat) :
    List Range → Res (List (Nat × α))
  | [] => .done []
  | r :: rs => (forValid bs valid fuel r.b r.e).bind fun vs =>
      (visitAll bs valid fuel rs).bind fun ws => .done (vs ++ ws)

theorem splits_visit {bs : List (Block α)} (h : WF bs) {f : Nat → Option α} (hf : Holds bs f)
    (valid : α → Bool) {r : Range} {rs : List Range} (hs : Splits bs valid r rs)
    (hr : RangeOk bs f valid r) :
    ∃ l, Returns (fun n => visitAll bs valid n rs) l ∧ l.Pairwise (fun a b => a.1 < b.1) ∧
      ∀ i v, (i, v) ∈ l ↔ r.b.idx ≤ i ∧ i < r.e.idx ∧ f i = some v ∧ valid v = true := by
  have happ : ∀ (xs ys : List Range) (l m : List (Nat × α)),
      Returns (fun n => visitAll bs valid n xs) l → Returns (fun n => visitAll bs valid n ys) m →
      Returns (fun n => visitAll bs valid n (xs ++ ys)) (l ++ m) := by
    intro xs ys l m hl hm
    obtain ⟨n, hn⟩ := hl
    obtain ⟨n', hn'⟩ := hm
    refine ⟨max n n', fun k hk => ?_⟩
    have h1 := hn k (by omega)
    have h2 := hn' k (by omega)
    clear hn hn'
    induction xs generalizing l with
    | nil =>
      simp only [visitAll] at h1
      injection h1 with h1
      subst h1
      simpa using h2
    | cons x xs ih =>
      simp only [visitAll, List.cons_append] at h1 ⊢
      cases hx : forValid bs valid k x.b x.e with
      | done vs =>
        rw [hx, Res.bind_done] at h1
        rw [Res.bind_done]
        cases hxs : visitAll bs valid k xs with
        | done ws =>
          rw [hxs, Res.bind_done] at h1
          injection h1 with h1
          subst h1
          have ih' : visitAll bs valid k (xs ++ ys) = .done (ws ++ m) := ih ws hxs
          rw [ih', Res.bind_done, List.append_assoc]
        | ub => rw [hxs] at h1; cases h1
        | timeout => rw [hxs] at h1; cases h1
      | ub => rw [hx] at h1; cases h1
      | timeout => rw [hx] at h1; cases h1
  induction hs with
  | leaf r =>
    obtain ⟨l, h1, h2, h3⟩ := forValid_spec h hf valid hr.e _ r.b hr.b
      (Nat.le_trans hr.le1 hr.le2) (Nat.le_refl _)
    refine ⟨l, ?_, h2, h3⟩
    simp only [visitAll, Res.bind_done, List.append_nil]
    exact h1.map id
  | node r r1 r2 xs ys _ hr1 hr2 _ _ ih1 ih2 =>
    obtain ⟨r1', h1, ok1, e1, e2⟩ := setMidpoint_spec h hf valid hr.b hr.mid hr.le1 r.grain
    obtain ⟨r2', h2, ok2, e3, e4⟩ := setMidpoint_spec h hf valid hr.mid hr.e hr.le2 r.grain
    have := hr1.unique h1
    subst this
    have := hr2.unique h2
    subst this
    obtain ⟨l, hl1, hl2, hl3⟩ := ih1 ok1
    obtain ⟨m, hm1, hm2, hm3⟩ := ih2 ok2
    rw [e1, e2] at hl3
    rw [e3, e4] at hm3
    have hle1 := hr.le1
    have hle2 := hr.le2
    refine ⟨l ++ m, happ _ _ _ _ hl1 hm1, ?_, ?_⟩
    · rw [List.pairwise_append]
      refine ⟨hl2, hm2, fun a ha b hb => ?_⟩
      have h1 := (hl3 a.1 a.2).mp ha
      have h2 := (hm3 b.1 b.2).mp hb
      omega
    · intro i v
      rw [List.mem_append, hl3, hm3]
      constructor
      · rintro (⟨h1, h2, h3⟩ | ⟨h1, h2, h3⟩)
        · exact ⟨h1, by omega, h3⟩
        · exact ⟨by omega, h2, h3⟩
      · rintro ⟨h1, h2, h3⟩
        rcases Nat.lt_or_ge i r.mid.idx with hl | hl
        · exact Or.inl ⟨h1, hl, h3⟩
        · exact Or.inr ⟨hl, h2, h3⟩

/-- **C77** (no split fails): the range of a container can be created, and every range obtained by
splitting can be split again; no step is undefined or runs forever. -/
theorem C77_split_defined {dflt : α} {bs : List (Block α)} {f : Nat → Option α}
    (h : Built false dflt bs f) (valid : α → Bool) (grain : Nat) :
    ∃ r, Returns (fun n => Range.init bs valid n grain) r ∧
      ∀ rs, Splits bs valid r rs → ∀ x ∈ rs, ∃ r1 r2,
        Returns (fun n => x.splitNew bs valid n) r1 ∧
        Returns (fun n => x.splitOld bs valid n) r2 := by
  obtain ⟨hwf, hf⟩ := built_ok h
  obtain ⟨b, hb, hbin, hmin⟩ := beginPos_spec hwf
  obtain ⟨e, t, he, ht, het, hel⟩ := endPos_spec hwf
  obtain ⟨q, hq1, hq2, hq3, hq4⟩ := advT_spec hwf hf valid (Or.inl hbin)
  have heV : VLegal bs f valid e := Or.inr he
  obtain ⟨r, hr1, hr2, hx1, hx2⟩ := setMidpoint_spec hwf hf valid hq2 heV
    (by rw [het]; exact hq2.legal.le_top hwf ht) grain
  refine ⟨r, ?_, ?_⟩
  · have hbeg : Returns (fun n => beginValid bs valid n) q := by
      simpa only [beginValid, hb, ofOpt, Res.bind_done] using hq1
    refine hbeg.bind (g := fun n b => (ofOpt (endPos bs)).bind fun e =>
      setMidpoint bs valid n b e grain) ?_
    simp only [he, ofOpt, Res.bind_done]
    exact hr1
  · intro rs hs
    have hgood : ∀ x, RangeOk bs f valid x → ∃ r1 r2,
        (Returns (fun n => x.splitNew bs valid n) r1 ∧ RangeOk bs f valid r1) ∧
        (Returns (fun n => x.splitOld bs valid n) r2 ∧ RangeOk bs f valid r2) := by
      intro x hx
      obtain ⟨r1, h1, ok1, _⟩ := setMidpoint_spec hwf hf valid hx.b hx.mid hx.le1 x.grain
      obtain ⟨r2, h2, ok2, _⟩ := setMidpoint_spec hwf hf valid hx.mid hx.e hx.le2 x.grain
      exact ⟨r1, r2, ⟨h1, ok1⟩, ⟨h2, ok2⟩⟩
    have hall : ∀ x ∈ rs, RangeOk bs f valid x := by
      clear hr1 hx1 hx2
      induction hs with
      | leaf r => intro x hx; rw [List.mem_singleton] at hx; subst hx; exact hr2
      | node r r1 r2 xs ys _ hn ho _ _ ih1 ih2 =>
        obtain ⟨r1', r2', ⟨h1, ok1⟩, ⟨h2, ok2⟩⟩ := hgood r hr2
        have := hn.unique h1
        subst this
        have := ho.unique h2
        subst this
        intro x hx
        rcases List.mem_append.mp hx with hx | hx
        · exact ih1 ok1 x hx
        · exact ih2 ok2 x hx
    intro x hx
    obtain ⟨r1, r2, h1, h2⟩ := hgood x (hall x hx)
    exact ⟨r1, r2, h1.1, h2.1⟩

/-- **C77**: however a parallel loop over the valid elements splits its range, the pieces together
visit every valid element exactly once. -/
theorem C77_split_complete {dflt : α} {bs : List (Block α)} {f : Nat → Option α}
    (h : Built false dflt bs f) (valid : α → Bool) (grain : Nat) (r : Range) (rs : List Range)
    (hr : Returns (fun n => Range.init bs valid n grain) r) (hs : Splits bs valid r rs) :
    ∃ l, Returns (fun n => visitAll bs valid n rs) l ∧ Returns (iterValid bs valid) l ∧
      l.Pairwise (fun a b => a.1 < b.1) ∧ ∀ i v, (i, v) ∈ l ↔ f i = some v ∧ valid v = true := by
  obtain ⟨hwf, hf⟩ := built_ok h
  obtain ⟨b, hb, hbin, hmin⟩ := beginPos_spec hwf
  obtain ⟨e, t, he, ht, het, hel⟩ := endPos_spec hwf
  obtain ⟨q, hq1, hq2, hq3, hq4⟩ := advT_spec hwf hf valid (Or.inl hbin)
  have heV : VLegal bs f valid e := Or.inr he
  obtain ⟨r', hr1, hr2, e1, e2⟩ := setMidpoint_spec hwf hf valid hq2 heV
    (by rw [het]; exact hq2.legal.le_top hwf ht) grain
  have hinit : Returns (fun n => Range.init bs valid n grain) r' := by
    have hbeg : Returns (fun n => beginValid bs valid n) q := by
      simpa only [beginValid, hb, ofOpt, Res.bind_done] using hq1
    refine hbeg.bind (g := fun n b => (ofOpt (endPos bs)).bind fun e =>
      setMidpoint bs valid n b e grain) ?_
    simp only [he, ofOpt, Res.bind_done]
    exact hr1
  have := hr.unique hinit
  subst this
  obtain ⟨l, h1, h2, h3⟩ := splits_visit hwf hf valid hs hr2
  obtain ⟨m, m1, m2, m3⟩ := C26_valid h valid
  have hmem : ∀ i v, (i, v) ∈ l ↔ f i = some v ∧ valid v = true := by
    intro i v
    rw [h3, e1, e2]
    refine ⟨fun h => h.2.2, fun ⟨hv, hvv⟩ => ?_⟩
    obtain ⟨c, hc, h1, h2, _⟩ := (hf i v).mp hv
    obtain ⟨k, hk⟩ := List.getElem?_of_mem hc
    have hin : In bs ⟨k, i⟩ := ⟨c, hk, h1, h2⟩
    refine ⟨?_, by rw [het]; exact hin.lt_top hwf ht, hv, hvv⟩
    by_contra hcon
    have := hq4 i v (hmin _ (Or.inl hin)) (by omega) hv
    rw [hvv] at this; cases this
  have hnd : ∀ l : List (Nat × α), l.Pairwise (fun a b => a.1 < b.1) → l.Nodup := fun l hl =>
    hl.imp fun {a b} hab he => by rw [he] at hab; omega
  have hlm : l = m := by
    have hp : l.Perm m := by
      rw [List.perm_ext_iff_of_nodup (hnd l h2) (hnd m m2)]
      rintro ⟨i, v⟩
      rw [hmem, m3]
    exact hp.eq_of_pairwise (fun a b _ _ h1 h2 => by omega) h2 m2
  exact ⟨l, h1, hlm ▸ m1, h2, hmem⟩

/-- A range over two blocks is divisible. -/
example : ((Range.init [⟨1, 4, [0, 5, 0]⟩, ⟨6, 8, [3, 7]⟩] (fun x => decide (x ≠ 0)) 20 1).bind
    fun r => .done (r.isDivisible, r.mid.idx)) = .done (true, 6) := by decide +kernel

/-! ### C72 -/

/-- **C72** (blocked array): loading into an array that has at least as many blocks as were saved
yields the saved blocks. Missing: loading into an array with fewer blocks, see
`C72_blocked_array_violated`. -/
theorem C72_blocked_array_partial (bs : List (Block α)) (have_ : Nat) (h : bs.length ≤ have_) :
    load have_ (save bs) = some bs := by
  simp [load, save, h, Function.comp_def]

/-- **C72** fails for the blocked array: every saved array with more blocks than the target has makes
`load` dereference a null pointer; a default-constructed `dSimplices` has one block
(Geometry.h:727). -/
theorem C72_blocked_array_violated (bs : List (Block α)) (h : 1 < bs.length) :
    load 1 (save bs) = none := by
  unfold load save
  rw [if_neg]
  rintro ⟨h1, _⟩
  simp only at h1
  omega

example : load 1 (save [Block.new 0 1 3, Block.new 0 6 7]) = none :=
  C72_blocked_array_violated _ (by decide)

end BA2

/-! ### C27 -/
namespace BA1
open BA2 (Acc)

/-- `reserve` makes room for the capacity. -/
theorem reserve_capacity (bs : Nat) (hb : 0 < bs) (a : Arr) (c : Nat) :
    c ≤ (reserve bs a c).nBlocks * bs := by
  simp only [reserve, if_neg (Nat.pos_iff_ne_zero.mp hb)]
  have h1 : c ≤ (c + bs - 1) / bs * bs := by
    have := Nat.div_add_mod (c + bs - 1) bs
    have := Nat.mod_lt (c + bs - 1) hb
    have hm : bs * ((c + bs - 1) / bs) = (c + bs - 1) / bs * bs := Nat.mul_comm _ _
    omega
  exact Nat.le_trans h1 (Nat.mul_le_mul_right _ (Nat.le_max_right _ _))

/-- **C27** (part): for every index except the capacity itself, `at` returns the element below the
capacity and throws above it; different indices are different cells. Missing: the index equal to the
capacity, see `C27_at_violated`. -/
theorem C27_at_partial (bs : Nat) (hb : 0 < bs) (a : Arr) (idx : Nat)
    (hne : idx ≠ a.nBlocks * bs) :
    (idx < a.nBlocks * bs → ∃ c, at_ bs a idx = .val c ∧ c.1 < a.nBlocks ∧ c.2 < bs ∧
      c.1 * bs + c.2 = idx) ∧
    (a.nBlocks * bs < idx → at_ bs a idx = .thrown) := by
  refine ⟨fun hlt => ?_, fun hlt => by rw [at_, if_pos hlt]⟩
  have h1 : idx / bs < a.nBlocks := (Nat.div_lt_iff_lt_mul hb).mpr hlt
  refine ⟨(idx / bs, idx % bs), ?_, h1, Nat.mod_lt _ hb, ?_⟩
  · rw [at_, if_neg (by omega), cell, if_pos h1]
  · have := Nat.div_add_mod idx bs
    rw [Nat.mul_comm] at this
    exact this

/-- **C27** fails: the index equal to the capacity is not rejected and is out of bounds, for every
array. -/
theorem C27_at_violated (bs : Nat) (hb : 0 < bs) (a : Arr) :
    at_ bs a (a.nBlocks * bs) = .ub := by
  have : a.nBlocks * bs / bs = a.nBlocks := Nat.mul_div_cancel _ hb
  rw [at_, if_neg (by omega), cell, this, if_neg (by omega)]

example : at_ 512 (reserve 512 { nBlocks := 0 } 600) 1024 = .ub ∧
    at_ 512 (reserve 512 { nBlocks := 0 } 600) 1023 = .val (1, 511) ∧
    at_ 512 (reserve 512 { nBlocks := 0 } 600) 1025 = .thrown := by decide +kernel

end BA1
end Verif
