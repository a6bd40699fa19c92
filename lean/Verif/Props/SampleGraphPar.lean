import Verif.Props.SampleGraph

/-!
# C68: the graph of a sample built by several threads
-/
namespace Verif
namespace Samp
variable {T : Nat}

/-! ### The edge map -/

theorem putKey_new {k : Nat} {w : Int} : ∀ {m : List (Nat × Int)}, (¬ ∃ x ∈ m, x.1 = k) → putKey k w m = m ++ [(k, w)]
  | [], _ => rfl
  | e :: m, h => by
    have he : e.1 ≠ k := fun hk => h ⟨e, by simp, hk⟩
    rw [putKey, if_neg he, putKey_new fun ⟨x, hx, hk⟩ => h ⟨x, List.mem_cons_of_mem _ hx, hk⟩, List.cons_append]

theorem putKey_same {k : Nat} {w : Int} : ∀ {m : List (Nat × Int)}, (∃ x ∈ m, x.1 = k) → (∀ x ∈ m, x.1 = k → x.2 = w) → putKey k w m = m
  | [], h, _ => by simp at h
  | e :: m, h, hw => by
    rw [putKey]
    split
    · next he => rw [show (k, w) = e from Prod.ext he.symm (hw e (by simp) he).symm]
    · next he =>
      rw [putKey_same]
      · obtain ⟨x, hx, hk⟩ := h
        rcases List.mem_cons.mp hx with rfl | hx
        · exact absurd hk he
        · exact ⟨x, hx, hk⟩
      · exact fun x hx => hw x (List.mem_cons_of_mem _ hx)

/-- Number of keys with source `i`. -/
def cnt (m : List (Nat × Int)) (i : Nat) : Nat := m.countP fun x => (unkey x.1).1 == i

/-- The edges the threads start with: nodes in range, weight a function of the nodes. -/
structure EdgesOk (n : Nat) (f : Nat → Nat → Int) (all : List Edge) : Prop where
  n32 : n ≤ 2 ^ 32
  src : ∀ e ∈ all, e.1 < n
  dst : ∀ e ∈ all, e.2.1 < n
  wt : ∀ e ∈ all, e.2.2 = f e.1 e.2.1

/-- Invariant of the first loop. -/
structure CInv (n : Nat) (f : Nat → Nat → Int) (all : List Edge) (s : Collect T) : Prop where
  len : s.recs.length = n + 1
  zero : s.recs[0]? = some 0
  nodup : (s.map.map Prod.fst).Nodup
  entry : ∀ x ∈ s.map, ∃ e ∈ all, x = (key e.1 e.2.1, e.2.2)
  todo : ∀ t, ∀ e ∈ s.todo t, e ∈ all
  all : ∀ e ∈ all, (∃ t, e ∈ s.todo t) ∨ ∃ x ∈ s.map, x.1 = key e.1 e.2.1
  inc : ∀ t i, s.inc t = some i → i < n
  count : ∀ i, i < n → ∃ c, s.recs[i + 1]? = some c ∧ c + (∑ t, if s.inc t = some i then 1 else 0) = cnt s.map i

theorem CInv.init {n : Nat} {f : Nat → Nat → Int} {work : Fin T → List Edge} : 
    CInv n f (List.ofFn work).flatten (Collect.init n work) where
  len := by simp [Collect.init]
  zero := by simp [Collect.init]
  nodup := by simp [Collect.init]
  entry := by simp [Collect.init]
  todo := fun t e he => List.mem_flatten.mpr ⟨work t, (List.mem_ofFn' _ _).mpr ⟨t, rfl⟩, he⟩
  all := by
    intro e he
    obtain ⟨l, hl, he⟩ := List.mem_flatten.mp he
    obtain ⟨t, rfl⟩ := (List.mem_ofFn' _ _).mp hl
    exact Or.inl ⟨t, he⟩
  inc := by simp [Collect.init]
  count := by
    intro i hi
    exact ⟨0, by simp [Collect.init, List.getElem?_replicate, hi], by simp [Collect.init, cnt]⟩

theorem sum_update {inc : Fin T → Option Nat} {t : Fin T} (ht : inc t = none) (v : Option Nat) (i : Nat) :
    (∑ u, if Function.update inc t v u = some i then 1 else 0) = (∑ u, if inc u = some i then 1 else 0) + if v = some i then 1 else 0 := by
  rw [← Finset.add_sum_erase _ _ (Finset.mem_univ t), ← Finset.add_sum_erase _ (fun u => if inc u = some i then 1 else 0) (Finset.mem_univ t)]
  rw [Function.update_self, ht, if_neg (by simp : ¬ (none : Option Nat) = some i), Nat.zero_add, Nat.add_comm]
  congr 1
  refine Finset.sum_congr rfl fun u hu => ?_
  rw [Function.update_of_ne (Finset.ne_of_mem_erase hu)]

theorem sum_clear {inc : Fin T → Option Nat} {t : Fin T} {j : Nat} (ht : inc t = some j) (i : Nat) :
    (∑ u, if inc u = some i then 1 else 0) = (∑ u, if Function.update inc t none u = some i then 1 else 0) + if j = i then 1 else 0 := by
  have h := sum_update (inc := Function.update inc t none) (t := t) (by rw [Function.update_self]) (some j) i
  rw [Function.update_idem, ← ht, Function.update_eq_self, ht] at h
  rw [h]
  simp

theorem CInv.step {n : Nat} {f : Nat → Nat → Int} {all : List Edge} (ho : EdgesOk n f all) {s s' : Collect T} (h : CInv n f all s)
    (hs : Collect.Step s s') : CInv n f all s' := by
  cases hs with
  | insert t e l hi ht =>
    have he : e ∈ all := h.todo t e (by rw [ht]; simp)
    have k1 := ho.src e he
    have k2 := ho.dst e he
    have hn := ho.n32
    have hun : unkey (key e.1 e.2.1) = (e.1, e.2.1) := unkey_key (by omega) (by omega)
    have hval : ∀ x ∈ s.map, x.1 = key e.1 e.2.1 → x.2 = e.2.2 := by
      intro x hx hk
      obtain ⟨e', he', rfl⟩ := h.entry x hx
      have k1' := ho.src e' he'
      have k2' := ho.dst e' he'
      have hun' : unkey (key e'.1 e'.2.1) = (e'.1, e'.2.1) := unkey_key (by omega) (by omega)
      dsimp only at hk ⊢
      rw [hk, hun] at hun'
      obtain ⟨q1, q2⟩ := Prod.ext_iff.mp hun'
      dsimp only at q1 q2
      rw [ho.wt e he, ho.wt e' he', q1, q2]
    by_cases hex : ∃ x ∈ s.map, x.1 = key e.1 e.2.1
    · have hm : (s.insert t e l).map = s.map := putKey_same hex hval
      have hinc : (s.insert t e l).inc = s.inc := by
        simp only [Collect.insert]
        rw [if_pos hex, ← hi, Function.update_eq_self]
      refine ⟨h.len, h.zero, by rw [hm]; exact h.nodup, by rw [hm]; exact h.entry, ?_, ?_, by rw [hinc]; exact h.inc, ?_⟩
      · intro u x hx
        simp only [Collect.insert, Function.update_apply] at hx
        split at hx
        · next hu => exact h.todo t x (by rw [ht]; exact List.mem_cons_of_mem _ hx)
        · exact h.todo u x hx
      · intro x hx
        rw [hm]
        rcases h.all x hx with ⟨u, hu⟩ | hk
        · by_cases hut : u = t
          · subst hut
            rw [ht] at hu
            rcases List.mem_cons.mp hu with rfl | hu
            · exact Or.inr hex
            · exact Or.inl ⟨u, by simp only [Collect.insert, Function.update_self]; exact hu⟩
          · exact Or.inl ⟨u, by simp only [Collect.insert, Function.update_of_ne hut]; exact hu⟩
        · exact Or.inr hk
      · intro i hi'
        rw [hm, hinc]
        exact h.count i hi'
    · have hm : (s.insert t e l).map = s.map ++ [(key e.1 e.2.1, e.2.2)] := putKey_new hex
      have hinc : (s.insert t e l).inc = Function.update s.inc t (some e.1) := by
        simp only [Collect.insert]
        rw [if_neg hex]
      refine ⟨h.len, h.zero, ?_, ?_, ?_, ?_, ?_, ?_⟩
      · rw [hm, List.map_append, List.nodup_append]
        refine ⟨h.nodup, by simp, ?_⟩
        intro a ha b hb
        simp only [List.map_cons, List.map_nil, List.mem_singleton] at hb
        obtain ⟨x, hx, rfl⟩ := List.mem_map.mp ha
        rintro hab
        exact hex ⟨x, hx, hab.trans hb⟩
      · intro x hx
        rw [hm] at hx
        rcases List.mem_append.mp hx with hx | hx
        · exact h.entry x hx
        · rw [List.mem_singleton] at hx
          exact ⟨e, he, hx⟩
      · intro u x hx
        simp only [Collect.insert, Function.update_apply] at hx
        split at hx
        · next hu => exact h.todo t x (by rw [ht]; exact List.mem_cons_of_mem _ hx)
        · exact h.todo u x hx
      · intro x hx
        rw [hm]
        rcases h.all x hx with ⟨u, hu⟩ | ⟨y, hy, hk⟩
        · by_cases hut : u = t
          · subst hut
            rw [ht] at hu
            rcases List.mem_cons.mp hu with rfl | hu
            · exact Or.inr ⟨_, List.mem_append_right _ (List.mem_singleton.mpr rfl), rfl⟩
            · exact Or.inl ⟨u, by simp only [Collect.insert, Function.update_self]; exact hu⟩
          · exact Or.inl ⟨u, by simp only [Collect.insert, Function.update_of_ne hut]; exact hu⟩
        · exact Or.inr ⟨y, List.mem_append_left _ hy, hk⟩
      · intro u i hu
        rw [hinc, Function.update_apply] at hu
        split at hu
        · cases hu; exact k1
        · exact h.inc u i hu
      · intro i hi'
        obtain ⟨c, c1, c2⟩ := h.count i hi'
        refine ⟨c, c1, ?_⟩
        rw [hm, hinc, sum_update hi, cnt, List.countP_append, ← cnt, ← Nat.add_assoc, c2]
        congr 1
        simp only [List.countP_cons, List.countP_nil, hun, Nat.zero_add, Option.some.injEq, beq_iff_eq]
  | count t i ht hlen =>
    have hin := h.inc t i ht
    refine ⟨by simp only [Collect.count, List.length_modify]; exact h.len, ?_, h.nodup, h.entry, h.todo, h.all, ?_, ?_⟩
    · simp only [Collect.count, List.getElem?_modify]
      rw [h.zero]
      simp
    · intro u j hu
      simp only [Collect.count, Function.update_apply] at hu
      split at hu
      · cases hu
      · exact h.inc u j hu
    · intro j hj
      obtain ⟨c, c1, c2⟩ := h.count j hj
      rw [sum_clear ht j] at c2
      simp only [Collect.count, List.getElem?_modify]
      rw [c1]
      by_cases e : i = j
      · subst e
        refine ⟨c + 1, by simp, ?_⟩
        rw [if_pos rfl] at c2
        rw [← c2, Nat.add_assoc, Nat.add_comm 1]
        congr!
      · refine ⟨c, by simp [e], ?_⟩
        rw [if_neg e, Nat.add_zero] at c2
        rw [← c2]
        congr!

theorem CInv.reach {n : Nat} {f : Nat → Nat → Int} {work : Fin T → List Edge} (ho : EdgesOk n f (List.ofFn work).flatten)
    {s : Collect T} (h : Relation.ReflTransGen Collect.Step (Collect.init n work) s) : CInv n f (List.ofFn work).flatten s := by
  induction h with
  | refl => exact CInv.init
  | tail _ hs ih => exact ih.step ho hs

/-- At the end of the first loop the counters are the numbers of keys. -/
theorem CInv.final {n : Nat} {f : Nat → Nat → Int} {all : List Edge} {s : Collect T} (h : CInv n f all s) (hf : s.final) (i : Nat)
    (hi : i < n) : s.recs[i + 1]? = some (cnt s.map i) := by
  obtain ⟨c, c1, c2⟩ := h.count i hi
  rw [c1, ← c2]
  simp [fun t => (hf t).1]

/-! ### Prefix sums -/

theorem partialSum_spec : ∀ (l : List Nat) (a : Nat) (r : List Nat), partialSum a l = some r →
    r.length = l.length ∧ ∀ i, i < l.length → r[i]? = some (a + (l.take (i + 1)).sum)
  | [], a, r, h => by cases h; simp
  | x :: l, a, r, h => by
    rw [partialSum] at h
    split at h
    · obtain ⟨r', hr', rfl⟩ := Option.map_eq_some_iff.mp h
      obtain ⟨h1, h2⟩ := partialSum_spec l (a + x) r' hr'
      refine ⟨by simp [h1], fun i hi => ?_⟩
      cases i with
      | zero => simp
      | succ i =>
        rw [List.getElem?_cons_succ, h2 i (by simpa using hi), List.take_succ_cons, List.sum_cons, Nat.add_assoc]
    · cases h

theorem partialSum_some : ∀ (l : List Nat) (a : Nat), a + l.sum < 2 ^ 31 → ∃ r, partialSum a l = some r
  | [], a, _ => ⟨[], rfl⟩
  | x :: l, a, h => by
    rw [List.sum_cons] at h
    obtain ⟨r, hr⟩ := partialSum_some l (a + x) (by omega)
    exact ⟨_, by rw [partialSum, if_pos (by omega), hr, Option.map_some]⟩

/-- The counters after the prefix sums. -/
theorem partialSum_recs {n : Nat} {c : Nat → Nat} {l r : List Nat} (hl : l.length = n + 1) (h0 : l[0]? = some 0)
    (hc : ∀ i, i < n → l[i + 1]? = some (c i)) (h : partialSum 0 l = some r) :
    r.length = n + 1 ∧ ∀ i, i ≤ n → r[i]? = some (∑ k ∈ Finset.range i, c k) := by
  obtain ⟨h1, h2⟩ := partialSum_spec l 0 r h
  refine ⟨by omega, fun i hi => ?_⟩
  rw [h2 i (by omega), Nat.zero_add]
  congr 1
  induction i with
  | zero =>
    rw [List.take_succ, h0]
    simp
  | succ i ih =>
    rw [List.take_succ, hc i (by omega), List.sum_append, ih (by omega), Finset.sum_range_succ]
    simp

/-! ### The second loop -/

/-- Source of an entry of the log. -/
abbrev lsrc (y : Nat × Nat × Int) : Nat := (unkey y.2.1).1

/-- Invariant of the second loop; `B i` is the first position of node `i`. -/
structure AInv (n size : Nat) (m : List (Nat × Int)) (s : Assign T) : Prop where
  ilen : s.index.length = size
  alen : s.adj.length = ∑ k ∈ Finset.range n, cnt m k
  wlen : s.wts.length = ∑ k ∈ Finset.range n, cnt m k
  perm : (s.log.map Prod.snd ++ (List.ofFn s.todo).flatten).Perm m
  index : ∀ i, i < n → ∃ o, s.index[i]? = some o ∧
    (s.log.filter fun y => lsrc y == i).map Prod.fst = List.range' (∑ k ∈ Finset.range i, cnt m k) o
  put : ∀ t x, s.put t = some x → ∃ k, (x.1, k, x.2.2) ∈ s.log ∧ x.2.1 = (unkey k).2
  stored : ∀ y ∈ s.log, (s.adj[y.1]? = some (unkey y.2.1).2 ∧ s.wts[y.1]? = some y.2.2) ∨
    ∃ t, s.put t = some (y.1, (unkey y.2.1).2, y.2.2)

theorem AInv.init {n size : Nat} {m : List (Nat × Int)} {work : Fin T → List (Nat × Int)} (hn : n ≤ size)
    (hw : ((List.ofFn work).flatten).Perm m) : AInv n size m (Assign.init size (∑ k ∈ Finset.range n, cnt m k) work) where
  ilen := by simp [Assign.init]
  alen := by simp [Assign.init]
  wlen := by simp [Assign.init]
  perm := by simpa [Assign.init] using hw
  index := by
    intro i hi
    exact ⟨0, by simp [Assign.init, List.getElem?_replicate]; omega, by simp [Assign.init]⟩
  put := by simp [Assign.init]
  stored := by simp [Assign.init]

/-- Number of entries of the log for a node. -/
theorem AInv.log_le {n size : Nat} {m : List (Nat × Int)} {s : Assign T} (h : AInv n size m s) (i : Nat) :
    (s.log.filter fun y => lsrc y == i).length ≤ cnt m i := by
  have h1 := h.perm.countP_eq (p := fun x => (unkey x.1).1 == i)
  rw [List.countP_append, List.countP_map] at h1
  rw [cnt, ← h1, ← List.countP_eq_length_filter]
  exact Nat.le_add_right _ _

/-- Positions of the entries of the log. -/
theorem AInv.pos {n size : Nat} {m : List (Nat × Int)} {s : Assign T} (h : AInv n size m s) (hm : ∀ x ∈ m, (unkey x.1).1 < n)
    {y : Nat × Nat × Int} (hy : y ∈ s.log) : lsrc y < n ∧ ∑ k ∈ Finset.range (lsrc y), cnt m k ≤ y.1 ∧
      y.1 < ∑ k ∈ Finset.range (lsrc y + 1), cnt m k := by
  have hi : lsrc y < n := hm y.2 (h.perm.mem_iff.mp (List.mem_append_left _ (List.mem_map_of_mem hy)))
  obtain ⟨o, _, ho⟩ := h.index _ hi
  have hl := h.log_le (lsrc y)
  have hlen : (s.log.filter fun z => lsrc z == lsrc y).length = o := by
    rw [← List.length_map (f := Prod.fst), ho, List.length_range']
  have hmem : y.1 ∈ (s.log.filter fun z => lsrc z == lsrc y).map Prod.fst :=
    List.mem_map_of_mem (List.mem_filter.mpr ⟨hy, by simp⟩)
  rw [ho, List.mem_range'_1] at hmem
  rw [Finset.sum_range_succ]
  exact ⟨hi, hmem.1, by omega⟩

theorem prefix_mono (c : Nat → Nat) {i j : Nat} (h : i ≤ j) : ∑ k ∈ Finset.range i, c k ≤ ∑ k ∈ Finset.range j, c k :=
  Finset.sum_le_sum_of_subset (Finset.range_subset_range.mpr h)

/-- Different entries of the log have different positions. -/
theorem AInv.pos_inj {n size : Nat} {m : List (Nat × Int)} {s : Assign T} (h : AInv n size m s) (hm : ∀ x ∈ m, (unkey x.1).1 < n)
    {y z : Nat × Nat × Int} (hy : y ∈ s.log) (hz : z ∈ s.log) (he : y.1 = z.1) : y = z := by
  obtain ⟨y1, y2, y3⟩ := h.pos hm hy
  obtain ⟨z1, z2, z3⟩ := h.pos hm hz
  have hs : lsrc y = lsrc z := by
    rcases lt_trichotomy (lsrc y) (lsrc z) with hlt | heq | hgt
    · have := prefix_mono (cnt m) (show lsrc y + 1 ≤ lsrc z from hlt)
      omega
    · exact heq
    · have := prefix_mono (cnt m) (show lsrc z + 1 ≤ lsrc y from hgt)
      omega
  obtain ⟨o, _, ho⟩ := h.index _ y1
  have hnd : ((s.log.filter fun x => lsrc x == lsrc y).map Prod.fst).Nodup := by rw [ho]; exact List.nodup_range'
  exact List.inj_on_of_nodup_map hnd (List.mem_filter.mpr ⟨hy, by simp⟩) (List.mem_filter.mpr ⟨hz, by simp [hs]⟩) he

theorem ofFn_update_perm {work : Fin T → List (Nat × Int)} {t : Fin T} {x : Nat × Int} {l : List (Nat × Int)} (ht : work t = x :: l) :
    ((List.ofFn work).flatten).Perm (x :: (List.ofFn (Function.update work t l)).flatten) := by
  have hcount : ∀ (f : Fin T → List (Nat × Int)) (a : Nat × Int), (List.ofFn f).flatten.count a = ∑ u, (f u).count a := by
    intro f a
    rw [List.count_flatten, List.map_ofFn, List.sum_ofFn]
    rfl
  rw [List.perm_iff_count]
  intro a
  rw [hcount, List.count_cons, hcount, ← Finset.add_sum_erase _ _ (Finset.mem_univ t),
    ← Finset.add_sum_erase _ (fun u => (Function.update work t l u).count a) (Finset.mem_univ t)]
  rw [Function.update_self, ht, List.count_cons]
  have : ∑ u ∈ Finset.univ.erase t, (Function.update work t l u).count a = ∑ u ∈ Finset.univ.erase t, (work u).count a :=
    Finset.sum_congr rfl fun u hu => by rw [Function.update_of_ne (Finset.ne_of_mem_erase hu)]
  rw [this]
  omega

theorem AInv.step {n size : Nat} {m : List (Nat × Int)} {recs : List Nat} (hm : ∀ x ∈ m, (unkey x.1).1 < n)
    (hr : ∀ i, i ≤ n → recs[i]? = some (∑ k ∈ Finset.range i, cnt m k)) {s s' : Assign T} (h : AInv n size m s)
    (hs : Assign.Step recs s s') : AInv n size m s' := by
  cases hs with
  | take t x l base off hp ht hb ho =>
    have hx : x ∈ m := h.perm.mem_iff.mp (List.mem_append_right _ (List.mem_flatten.mpr ⟨s.todo t, (List.mem_ofFn' _ _).mpr ⟨t, rfl⟩, by rw [ht]; simp⟩))
    have hi := hm x hx
    rw [hr _ hi.le] at hb
    have hb := Option.some.inj hb
    refine ⟨by simp only [Assign.take, List.length_modify]; exact h.ilen, h.alen, h.wlen, ?_, ?_, ?_, ?_⟩
    · refine List.Perm.trans ?_ h.perm
      simp only [Assign.take, List.map_append, List.map_cons, List.map_nil, List.append_assoc, List.singleton_append]
      exact List.Perm.append_left _ (ofFn_update_perm ht).symm
    · intro i hin
      obtain ⟨o, o1, o2⟩ := h.index i hin
      simp only [Assign.take, List.getElem?_modify, List.filter_append, List.map_append]
      by_cases e : (unkey x.1).1 = i
      · rw [e, o1] at ho
        cases ho
        refine ⟨off + 1, by simp [e, o1], ?_⟩
        rw [o2, List.range'_concat, ← e, hb]
        simp [lsrc]
      · refine ⟨o, by simp [e, o1], ?_⟩
        rw [o2]
        simp [lsrc, e]
    · intro u y hy
      simp only [Assign.take, Function.update_apply] at hy ⊢
      split at hy
      · cases hy
        exact ⟨x.1, List.mem_append_right _ (List.mem_singleton.mpr rfl), rfl⟩
      · obtain ⟨k, k1, k2⟩ := h.put u y hy
        exact ⟨k, List.mem_append_left _ k1, k2⟩
    · intro y hy
      simp only [Assign.take] at hy ⊢
      rcases List.mem_append.mp hy with hy | hy
      · rcases h.stored y hy with hst | ⟨u, hu⟩
        · exact Or.inl hst
        · refine Or.inr ⟨u, ?_⟩
          rw [Function.update_of_ne]
          · exact hu
          · rintro rfl
            rw [hp] at hu
            cases hu
      · rw [List.mem_singleton] at hy
        subst hy
        exact Or.inr ⟨t, by rw [Function.update_self]⟩
  | store t x hp ha hw =>
    refine ⟨h.ilen, by simp only [Assign.store, List.length_set]; exact h.alen, by simp only [Assign.store, List.length_set]; exact h.wlen,
      h.perm, h.index, ?_, ?_⟩
    · intro u y hy
      simp only [Assign.store, Function.update_apply] at hy
      split at hy
      · cases hy
      · exact h.put u y hy
    · obtain ⟨k, k1, k2⟩ := h.put t x hp
      intro y hy
      simp only [Assign.store] at hy ⊢
      by_cases e : y.1 = x.1
      · have := h.pos_inj hm hy k1 e
        subst this
        left
        simp only [List.getElem?_set_self ha, List.getElem?_set_self hw, k2, and_self]
      · rcases h.stored y hy with ⟨h1, h2⟩ | ⟨u, hu⟩
        · left
          rw [List.getElem?_set_ne (Ne.symm e), List.getElem?_set_ne (Ne.symm e)]
          exact ⟨h1, h2⟩
        · refine Or.inr ⟨u, ?_⟩
          rw [Function.update_of_ne]
          · exact hu
          · rintro rfl
            rw [hp] at hu
            cases hu
            exact e rfl

theorem AInv.reach {n size : Nat} {m : List (Nat × Int)} {recs : List Nat} (hn : n ≤ size) (hm : ∀ x ∈ m, (unkey x.1).1 < n)
    (hr : ∀ i, i ≤ n → recs[i]? = some (∑ k ∈ Finset.range i, cnt m k)) {work : Fin T → List (Nat × Int)}
    (hw : ((List.ofFn work).flatten).Perm m) {s : Assign T}
    (h : Relation.ReflTransGen (Assign.Step recs) (Assign.init size (∑ k ∈ Finset.range n, cnt m k) work) s) : AInv n size m s := by
  induction h with
  | refl => exact AInv.init hn hw
  | tail _ hs ih => exact ih.step hm hr hs

/-- At the end of the second loop the graph has the rows of the log. -/
theorem AInv.rows {n size : Nat} {m : List (Nat × Int)} {recs : List Nat}
    (hl : recs.length = n + 1) (hr : ∀ i, i ≤ n → recs[i]? = some (∑ k ∈ Finset.range i, cnt m k)) {s : Assign T} (h : AInv n size m s)
    (hf : s.final) : (s.log.map Prod.snd).Perm m ∧
      Rows n (fun i => (s.log.filter fun y => lsrc y == i).map fun y => ((unkey y.2.1).2, y.2.2)) ⟨recs, s.adj, s.wts⟩ := by
  have hperm : (s.log.map Prod.snd).Perm m := by
    have := h.perm
    rwa [show (List.ofFn s.todo).flatten = [] by
      rw [List.flatten_eq_nil_iff]
      intro l hl
      obtain ⟨t, rfl⟩ := (List.mem_ofFn' _ _).mp hl
      exact (hf t).2, List.append_nil] at this
  have hlen : ∀ i, ((s.log.filter fun y => lsrc y == i).map fun y => ((unkey y.2.1).2, y.2.2)).length = cnt m i := by
    intro i
    rw [List.length_map, cnt, ← hperm.countP_eq, List.countP_map, List.countP_eq_length_filter]
    rfl
  refine ⟨hperm, hl, fun i hi => by simp only [hlen]; exact hr i hi, by simp only [hlen]; exact h.alen,
    by rw [h.alen]; exact h.wlen, fun i hi k x hx => ?_⟩
  simp only [hlen]
  rw [List.getElem?_map, Option.map_eq_some_iff] at hx
  obtain ⟨y, hy, rfl⟩ := hx
  obtain ⟨o, _, ho⟩ := h.index i hi
  have hpos : y.1 = (∑ k ∈ Finset.range i, cnt m k) + k := by
    have h1 : ((s.log.filter fun y => lsrc y == i).map Prod.fst)[k]? = some y.1 := by rw [List.getElem?_map, hy, Option.map_some]
    have hko : k < o := by
      have := (List.getElem?_eq_some_iff.mp h1).1
      rwa [ho, List.length_range'] at this
    rw [ho, List.getElem?_range' hko] at h1
    have := Option.some.inj h1
    omega
  rw [← hpos]
  rcases h.stored y (List.mem_of_mem_filter (List.mem_of_getElem? hy)) with hst | ⟨t, ht⟩
  · exact hst
  · rw [(hf t).1] at ht
    cases ht

end Samp
end Verif
