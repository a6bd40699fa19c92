import Verif.Props.SampleGraphPar

/-!
# C68: the graph of a sample, parallel version
-/
namespace Verif
namespace Samp

variable {T : Nat}

theorem edges_ok {D : Nat} {ids : List Nat} {S : List (List Nat)} (h : SampleOk D ids S) (w : Nat → Nat → Int) (hn : ids.length ≤ 2 ^ 32)
    {all : List Edge} (hp : all.Perm (S.flatMap (pairs D (translation ids) w))) :
    EdgesOk ids.length (fun i j => w (ids.getD i 0) (ids.getD j 0)) all := by
  refine ⟨hn, fun e he => ?_, fun e he => ?_, fun e he => ?_⟩ <;>
    obtain ⟨_, vs, hvs, p, hp', q, hq, h1, h2, h3⟩ := (edges_spec h w e).mp (hp.mem_iff.mp he)
  · exact (List.getElem?_eq_some_iff.mp h1).1
  · exact (List.getElem?_eq_some_iff.mp h2).1
  · rw [h3, List.getD_eq_getElem?_getD, List.getD_eq_getElem?_getD, h1, h2, Option.getD_some, Option.getD_some]

/-- Entries of the map after the first loop. -/
theorem CInv.entry_unkey {n : Nat} {f : Nat → Nat → Int} {all : List Edge} (ho : EdgesOk n f all) {s : Collect T} (h : CInv n f all s)
    {x : Nat × Int} (hx : x ∈ s.map) : ∃ e ∈ all, x = (key e.1 e.2.1, e.2.2) ∧ unkey x.1 = (e.1, e.2.1) := by
  obtain ⟨e, he, hxe⟩ := h.entry x hx
  have h1 := ho.src e he
  have h2 := ho.dst e he
  have h3 := ho.n32
  exact ⟨e, he, hxe, by rw [hxe]; exact unkey_key (by omega) (by omega)⟩

theorem getLast_recs {n : Nat} {r : List Nat} {v : Nat} (hl : r.length = n + 1) (h : r[n]? = some v) : r.getLast?.getD 0 = v := by
  rw [List.getLast?_eq_getElem?, hl, Nat.add_sub_cancel, h, Option.getD_some]

/-- The rows of the graph. -/
theorem makeGraph_rows {D : Nat} {ids : List Nat} {S : List (List Nat)} (h : SampleOk D ids S) (w : Nat → Nat → Int)
    (hn : ids.length ≤ 2 ^ 32) {size : Nat} (hsz : ids.length ≤ size) {g : Graph}
    (hg : MakeGraph D ids.length (translation ids) w S size g) : ∃ R : Nat → List (Nat × Int), Rows ids.length R g ∧
      (∀ i, i < ids.length → ((R i).map Prod.fst).Nodup) ∧
      ∀ i, i < ids.length → ∀ x, x ∈ R i ↔ (i, x.1, x.2) ∈ S.flatMap (pairs D (translation ids) w) := by
  obtain ⟨T, work, c, recs, ework, a, hw, hc, hcf, hps, hew, ha, haf⟩ := hg
  have ho := edges_ok h w hn hw
  have ci := CInv.reach ho hc
  obtain ⟨r1, r2⟩ := partialSum_recs ci.len ci.zero (fun i hi => ci.final hcf i hi) hps
  rw [getLast_recs r1 (r2 _ le_rfl)] at ha
  have hm : ∀ x ∈ c.map, (unkey x.1).1 < ids.length := by
    intro x hx
    obtain ⟨e, he, _, hu⟩ := ci.entry_unkey ho hx
    rw [hu]
    exact ho.src e he
  obtain ⟨hperm, hrows⟩ := (AInv.reach hsz hm r2 hew ha).rows r1 r2 haf
  have hlog : ∀ y ∈ a.log, y.2 ∈ c.map := fun y hy => hperm.mem_iff.mp (List.mem_map_of_mem hy)
  have hkeys : (a.log.map fun y => y.2.1).Nodup := by
    have := (hperm.map Prod.fst).nodup_iff.mpr ci.nodup
    rwa [List.map_map] at this
  refine ⟨_, hrows, fun i hi => ?_, fun i hi x => ?_⟩
  · rw [List.map_map]
    have hk' : ((a.log.filter fun y => lsrc y == i).map fun y => y.2.1).Nodup :=
      hkeys.sublist (List.filter_sublist.map _)
    refine List.Nodup.map_on ?_ hk'.of_map
    intro y hy z hz he
    rw [List.mem_filter] at hy hz
    obtain ⟨e, he1, e1, e2⟩ := ci.entry_unkey ho (hlog y hy.1)
    obtain ⟨e', he1', e1', e2'⟩ := ci.entry_unkey ho (hlog z hz.1)
    have s1 : (unkey y.2.1).1 = i := by simpa [lsrc] using hy.2
    have s2 : (unkey z.2.1).1 = i := by simpa [lsrc] using hz.2
    simp only [Function.comp_apply] at he
    rw [e2] at s1 he
    rw [e2'] at s2 he
    refine List.inj_on_of_nodup_map hkeys hy.1 hz.1 ?_
    show y.2.1 = z.2.1
    rw [e1, e1']
    simp only at s1 s2 he ⊢
    rw [s1, s2, he]
  · simp only [List.mem_map, List.mem_filter, beq_iff_eq]
    constructor
    · rintro ⟨y, ⟨hy, hs⟩, rfl⟩
      obtain ⟨e, he1, e1, e2⟩ := ci.entry_unkey ho (hlog y hy)
      rw [lsrc, e2] at hs
      rw [e2, ← hs, e1]
      exact hw.mem_iff.mp he1
    · intro hx
      have hx' := hw.mem_iff.mpr hx
      rcases ci.all _ hx' with ⟨t, ht⟩ | ⟨x', hx1, hx2⟩
      · rw [(hcf t).2] at ht
        simp at ht
      · obtain ⟨e, he1, e1, e2⟩ := ci.entry_unkey ho hx1
        have b1 := ho.src _ hx'
        have b2 := ho.dst _ hx'
        have b3 := ho.wt _ hx'
        have b4 := ho.wt _ he1
        simp only at b1 b2 b3 b4 hx2
        rw [hx2, unkey_key (by omega) (by omega)] at e2
        obtain ⟨e3, e4⟩ := Prod.mk.inj e2
        obtain ⟨y, hy, hyx⟩ := List.mem_map.mp (hperm.mem_iff.mpr hx1)
        refine ⟨y, ⟨hy, ?_⟩, ?_⟩
        · rw [lsrc, hyx, hx2, unkey_key (by omega) (by omega)]
        · rw [hyx, hx2, unkey_key (by omega) (by omega), e1]
          simp only [b4, ← e3, ← e4, ← b3]

/-- **C68** (partial: without the sorting step for reproducible results and without the races of the look-ups in the translation
table, see below): whatever the schedule, the distribution of the simplices to the threads and of the
entries of the edge map, `makeGraph` returns the graph of the sample triangulation. -/
theorem C68_partial {D : Nat} {ids : List Nat} {S : List (List Nat)} (h : SampleOk D ids S) (w : Nat → Nat → Int)
    (hn : ids.length ≤ 2 ^ 32) {size : Nat} (hsz : ids.length ≤ size) {g : Graph}
    (hg : MakeGraph D ids.length (translation ids) w S size g) : GraphOk ids w S g := by
  obtain ⟨R, h1, h2, h3⟩ := makeGraph_rows h w hn hsz hg
  exact h1.graphOk h h2 h3

/-- The graph of a sample triangulation is symmetric, and so are its weights if the weight function is. -/
theorem C68_symmetric {ids : List Nat} {S : List (List Nat)} {w : Nat → Nat → Int} {g : Graph} (hg : GraphOk ids w S g)
    {i j lo hi k : Nat} (h1 : g.recs[i]? = some lo) (h2 : g.recs[i + 1]? = some hi) (hk : lo ≤ k) (hk' : k < hi)
    (hj : g.adj[k]? = some j) : ∃ lo' hi' k' : Nat, g.recs[j]? = some lo' ∧ g.recs[j + 1]? = some hi' ∧ lo' ≤ k' ∧ k' < hi' ∧
      g.adj[k']? = some i ∧ ((∀ p q, w p q = w q p) → g.wts[k']? = g.wts[k]?) := by
  obtain ⟨hne, vs, hvs, p, hp, q, hq, hip, hjq⟩ := (hg.mem i lo hi h1 h2 j).mp ⟨k, hk, hk', hj⟩
  have hjn := (List.getElem?_eq_some_iff.mp hjq).1
  have hlen := hg.len
  have e1 : g.recs[j]? = some g.recs[j] := List.getElem?_eq_getElem (by omega)
  have e2 : g.recs[j + 1]? = some g.recs[j + 1] := List.getElem?_eq_getElem (by omega)
  obtain ⟨k', a1, a2, a3⟩ := (hg.mem j _ _ e1 e2 i).mpr ⟨Ne.symm hne, vs, hvs, q, hq, p, hp, hjq, hip⟩
  exact ⟨_, _, k', e1, e2, a1, a2, a3, fun hw => by
    rw [hg.weight j _ _ e1 e2 i k' q p a1 a2 a3 hjq hip, hg.weight i lo hi h1 h2 j k p q hk hk' hj hip hjq, hw]⟩

/-! ### No access out of bounds -/

/-- No schedule of the first loop writes out of bounds. -/
theorem C68_collect_defined {D : Nat} {ids : List Nat} {S : List (List Nat)} (h : SampleOk D ids S) (w : Nat → Nat → Int)
    (hn : ids.length ≤ 2 ^ 32) {work : Fin T → List Edge}
    (hw : ((List.ofFn work).flatten).Perm (S.flatMap (pairs D (translation ids) w))) {c : Collect T}
    (hc : Relation.ReflTransGen Collect.Step (Collect.init ids.length work) c) : ¬ c.undef := by
  rintro ⟨t, i, hi, hlen⟩
  have ci := CInv.reach (edges_ok h w hn hw) hc
  have := ci.inc t i hi
  have := ci.len
  omega

/-- No schedule of the second loop accesses an array out of bounds. -/
theorem C68_assign_defined {D : Nat} {ids : List Nat} {S : List (List Nat)} (h : SampleOk D ids S) (w : Nat → Nat → Int)
    (hn : ids.length ≤ 2 ^ 32) {size : Nat} (hsz : ids.length ≤ size) {work : Fin T → List Edge}
    (hw : ((List.ofFn work).flatten).Perm (S.flatMap (pairs D (translation ids) w))) {c : Collect T}
    (hc : Relation.ReflTransGen Collect.Step (Collect.init ids.length work) c) (hcf : c.final) {recs : List Nat}
    (hps : partialSum 0 c.recs = some recs) {ework : Fin T → List (Nat × Int)} (hew : ((List.ofFn ework).flatten).Perm c.map)
    {a : Assign T} (ha : Relation.ReflTransGen (Assign.Step recs) (Assign.init size (recs.getLast?.getD 0) ework) a) :
    ¬ a.undef recs := by
  have ho := edges_ok h w hn hw
  have ci := CInv.reach ho hc
  obtain ⟨r1, r2⟩ := partialSum_recs ci.len ci.zero (fun i hi => ci.final hcf i hi) hps
  rw [getLast_recs r1 (r2 _ le_rfl)] at ha
  have hm : ∀ x ∈ c.map, (unkey x.1).1 < ids.length := by
    intro x hx
    obtain ⟨e, he, _, hu⟩ := ci.entry_unkey ho hx
    rw [hu]
    exact ho.src e he
  have ai := AInv.reach hsz hm r2 hew ha
  rintro (⟨t, x, l, _, ht, hx⟩ | ⟨t, x, hx, hlen⟩)
  · have hxm : x ∈ c.map := ai.perm.mem_iff.mp (List.mem_append_right _ (List.mem_flatten.mpr
      ⟨a.todo t, (List.mem_ofFn' _ _).mpr ⟨t, rfl⟩, by rw [ht]; simp⟩))
    have := hm x hxm
    have := ai.ilen
    omega
  · obtain ⟨k, k1, _⟩ := ai.put t x hx
    obtain ⟨p1, p2, p3⟩ := ai.pos hm k1
    have := prefix_mono (cnt c.map) (show (lsrc (x.1, k, x.2.2)) + 1 ≤ ids.length from p1)
    have := ai.alen
    have := ai.wlen
    omega

/-! ### Termination -/

/-- Steps the threads of the first loop still have to do, at most. -/
def Collect.left (s : Collect T) : Nat := ∑ t, (2 * (s.todo t).length + if s.inc t = none then 0 else 1)

/-- Steps the threads of the second loop still have to do. -/
def Assign.left (s : Assign T) : Nat := ∑ t, (2 * (s.todo t).length + if s.put t = none then 0 else 1)

theorem sum_lt_of {f g : Fin T → Nat} (t : Fin T) (h : f t < g t) (ho : ∀ u, u ≠ t → f u = g u) : ∑ u, f u < ∑ u, g u := by
  refine Finset.sum_lt_sum (fun u _ => ?_) ⟨t, Finset.mem_univ t, h⟩
  by_cases e : u = t
  · subst e; exact h.le
  · exact (ho u e).le

theorem Collect.Step.left_lt {s s' : Collect T} (h : Collect.Step s s') : s'.left < s.left := by
  cases h with
  | insert t e l hi ht =>
    refine sum_lt_of t ?_ fun u hu => ?_
    · simp only [Collect.insert, Function.update_self, ht, hi, List.length_cons]
      split <;> simp
      omega
    · simp only [Collect.insert, Function.update_of_ne hu]
  | count t i hi hl =>
    refine sum_lt_of t ?_ fun u hu => ?_
    · simp [Collect.count, hi]
    · simp only [Collect.count, Function.update_of_ne hu]

theorem Assign.Step.left_lt {recs : List Nat} {s s' : Assign T} (h : Assign.Step recs s s') : s'.left < s.left := by
  cases h with
  | take t x l base off hp ht hb ho =>
    refine sum_lt_of t ?_ fun u hu => ?_
    · simp [Assign.take, Function.update_self, ht, hp, List.length_cons]
      omega
    · simp only [Assign.take, Function.update_of_ne hu]
  | store t x hp h1 h2 =>
    refine sum_lt_of t ?_ fun u hu => ?_
    · simp [Assign.store, hp]
    · simp only [Assign.store, Function.update_of_ne hu]

/-- A relation with a decreasing measure has a run to a state without successors. -/
theorem exists_run {α : Type} {r : α → α → Prop} (f : α → Nat) (hf : ∀ a b, r a b → f b < f a) (a : α) :
    ∃ b, Relation.ReflTransGen r a b ∧ ∀ c, ¬ r b c := by
  induction h : f a using Nat.strong_induction_on generalizing a with
  | _ k ih =>
    by_cases hs : ∃ b, r a b
    · obtain ⟨b, hb⟩ := hs
      obtain ⟨c, h1, h2⟩ := ih (f b) (by rw [← h]; exact hf a b hb) b rfl
      exact ⟨c, .head hb h1, h2⟩
    · exact ⟨a, .refl, fun c hc => hs ⟨c, hc⟩⟩

theorem Collect.stuck {s : Collect T} (hu : ¬ s.undef) (h : ∀ s', ¬ Collect.Step s s') : s.final := by
  intro t
  have hi : s.inc t = none := by
    cases e : s.inc t with
    | none => rfl
    | some i => exact absurd (Collect.Step.count s t i e (by by_contra hc; exact hu ⟨t, i, e, by omega⟩)) (h _)
  refine ⟨hi, ?_⟩
  cases e : s.todo t with
  | nil => rfl
  | cons x l => exact absurd (Collect.Step.insert s t x l hi e) (h _)

theorem Assign.stuck {recs : List Nat} {s : Assign T} (hu : ¬ s.undef recs) (h : ∀ s', ¬ Assign.Step recs s s') : s.final := by
  intro t
  have hi : s.put t = none := by
    cases e : s.put t with
    | none => rfl
    | some x =>
      exact absurd (Assign.Step.store s t x e (by by_contra hc; exact hu (Or.inr ⟨t, x, e, by omega⟩))
        (by by_contra hc; exact hu (Or.inr ⟨t, x, e, by omega⟩))) (h _)
  refine ⟨hi, ?_⟩
  cases e : s.todo t with
  | nil => rfl
  | cons x l =>
    have h1 : (unkey x.1).1 < recs.length := by by_contra hc; exact hu (Or.inl ⟨t, x, l, hi, e, by omega⟩)
    have h2 : (unkey x.1).1 < s.index.length := by by_contra hc; exact hu (Or.inl ⟨t, x, l, hi, e, by omega⟩)
    exact absurd (Assign.Step.take s t x l _ _ hi e (List.getElem?_eq_getElem h1) (List.getElem?_eq_getElem h2)) (h _)

/-- Both loops end under every schedule: the number of steps is bounded, and a state without a next step is final. -/
theorem C68_collect_ends {D : Nat} {ids : List Nat} {S : List (List Nat)} (h : SampleOk D ids S) (w : Nat → Nat → Int)
    (hn : ids.length ≤ 2 ^ 32) {work : Fin T → List Edge}
    (hw : ((List.ofFn work).flatten).Perm (S.flatMap (pairs D (translation ids) w))) {c : Collect T}
    (hc : Relation.ReflTransGen Collect.Step (Collect.init ids.length work) c) :
    (∀ c', Collect.Step c c' → c'.left < c.left) ∧ ((∀ c', ¬ Collect.Step c c') → c.final) :=
  ⟨fun _ hs => hs.left_lt, Collect.stuck (C68_collect_defined h w hn hw hc)⟩

theorem partialSum_fits {l : List Nat} {n : Nat} {c : Nat → Nat} (hl : l.length = n + 1) (h0 : l[0]? = some 0)
    (hc : ∀ i, i < n → l[i + 1]? = some (c i)) : l.sum = ∑ k ∈ Finset.range n, c k := by
  cases l with
  | nil => simp at hl
  | cons x l =>
    simp only [List.getElem?_cons_zero, Option.some.injEq] at h0
    simp only [List.getElem?_cons_succ] at hc
    simp only [List.length_cons, Nat.add_right_cancel_iff] at hl
    rw [List.sum_cons, h0, Nat.zero_add]
    have : l = (List.range n).map c := by
      refine List.ext_getElem? fun i => ?_
      by_cases hi : i < n
      · rw [hc i hi, List.getElem?_map, List.getElem?_range hi, Option.map_some]
      · rw [List.getElem?_eq_none (by omega), List.getElem?_eq_none (by simpa using hi)]
    rw [this, Finset.sum_range, ← List.sum_ofFn]
    congr 1
    exact List.ext_getElem (by simp) (by simp)

theorem sum_cnt_le (m : List (Nat × Int)) (n : Nat) : ∑ k ∈ Finset.range n, cnt m k ≤ m.length := by
  have h : ∀ m : List (Nat × Int), ∑ k ∈ Finset.range n, cnt m k ≤ m.length := by
    intro m
    induction m with
    | nil => simp [cnt]
    | cons x m ih =>
      have : ∀ k, cnt (x :: m) k = cnt m k + if (unkey x.1).1 = k then 1 else 0 := by
        intro k
        simp [cnt, List.countP_cons]
      simp only [this, Finset.sum_add_distrib, List.length_cons, Finset.sum_ite_eq]
      split <;> omega
  exact h m

/-- The keys of the map are keys of edges. -/
theorem CInv.map_le {n : Nat} {f : Nat → Nat → Int} {all : List Edge} {s : Collect T} (h : CInv n f all s) :
    s.map.length ≤ all.length := by
  have h1 : (s.map.map Prod.fst).toFinset ⊆ (all.map fun e => key e.1 e.2.1).toFinset := by
    intro k hk
    rw [List.mem_toFinset, List.mem_map] at hk ⊢
    obtain ⟨x, hx, rfl⟩ := hk
    obtain ⟨e, he, rfl⟩ := h.entry x hx
    exact ⟨e, he, rfl⟩
  have h2 := Finset.card_le_card h1
  rw [List.toFinset_card_of_nodup h.nodup, List.length_map] at h2
  have := List.toFinset_card_le (all.map fun e => key e.1 e.2.1)
  rw [List.length_map] at this
  omega

/-- With less than 2³¹ edges there is a result, for every number of threads and every distribution of the edges. -/
theorem C68_returns {D : Nat} {ids : List Nat} {S : List (List Nat)} (h : SampleOk D ids S) (w : Nat → Nat → Int)
    (hn : ids.length ≤ 2 ^ 32) {size : Nat} (hsz : ids.length ≤ size)
    (hs : (S.flatMap (pairs D (translation ids) w)).length < 2 ^ 31) :
    ∃ g, MakeGraph D ids.length (translation ids) w S size g := by
  let work : Fin 1 → List Edge := fun _ => S.flatMap (pairs D (translation ids) w)
  have hw : ((List.ofFn work).flatten).Perm (S.flatMap (pairs D (translation ids) w)) := by simp [work]
  obtain ⟨c, c1, c2⟩ := exists_run (r := Collect.Step) Collect.left (fun _ _ hs => hs.left_lt) (Collect.init ids.length work)
  have hcf := Collect.stuck (C68_collect_defined h w hn hw c1) c2
  have ci := CInv.reach (edges_ok h w hn hw) c1
  have hsum := partialSum_fits ci.len ci.zero (fun i hi => ci.final hcf i hi)
  have hle := ci.map_le
  rw [hw.length_eq] at hle
  have := sum_cnt_le c.map ids.length
  obtain ⟨recs, hr⟩ := partialSum_some c.recs 0 (by omega)
  let ework : Fin 1 → List (Nat × Int) := fun _ => c.map
  have hew : ((List.ofFn ework).flatten).Perm c.map := by simp [ework]
  obtain ⟨a, a1, a2⟩ := exists_run (r := Assign.Step recs) Assign.left (fun _ _ hs => hs.left_lt)
    (Assign.init size (recs.getLast?.getD 0) ework)
  exact ⟨_, .intro 1 work c recs ework a hw c1 hcf hr hew a1 (Assign.stuck (C68_assign_defined h w hn hsz hw c1 hcf hr hew a1) a2)⟩

end Samp
end Verif
