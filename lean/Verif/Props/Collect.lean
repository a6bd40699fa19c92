import Verif.Model.Collect
import Verif.Props.Misc
import Verif.Props.Construct
import Mathlib.Data.List.Zip

/-!
# C55: blocks of simplex ids; C78: the base triangulator's result
-/
namespace Verif
namespace DC
open Conc

/-! ### C55 -/

/-- The requests that have returned: size and start of the block. -/
def blocks {n : Nat} : List (Ev n Nat Nat) → List (Nat × Nat)
  | [] => []
  | .inv _ _ :: l => blocks l
  | .res _ op r :: l => (op, r) :: blocks l

/-- Sum of all requested sizes. -/
def requested {n : Nat} : List (Ev n Nat Nat) → Nat
  | [] => 0
  | .inv _ op :: l => op + requested l
  | .res _ _ _ :: l => requested l

theorem blocks_snoc {n : Nat} (l : List (Ev n Nat Nat)) (e : Ev n Nat Nat) : blocks (l ++ [e]) =
    blocks l ++ match e with | .inv _ _ => [] | .res _ op r => [(op, r)] := by
  induction l with
  | nil => cases e <;> rfl
  | cons a l ih => cases a <;> simp [blocks, ih]

theorem requested_snoc {n : Nat} (l : List (Ev n Nat Nat)) (e : Ev n Nat Nat) : requested (l ++ [e]) =
    requested l + match e with | .inv _ op => op | .res _ _ _ => 0 := by
  induction l with
  | nil => cases e <;> simp [requested]
  | cons a l ih => cases a <;> simp [requested, ih]; omega

/-- Size requested by a thread. -/
def opOf : Option (Active Nat Nat) → Nat
  | none => 0
  | some a => a.op

/-- Sizes requested by operations that have not taken their step. -/
def pending {n : Nat} (c : Config n Nat Nat Nat Nat) : Nat := ∑ t, opOf (c.th t)

structure CountInv {n : Nat} (c : Config n Nat Nat Nat Nat) : Prop where
  loc : ∀ t a, c.th t = some a → a.loc = a.op
  pos : 1 ≤ c.sh
  total : c.sh + pending c = 1 + requested c.hist
  below : ∀ b ∈ blocks c.hist, 1 ≤ b.2 ∧ b.2 + b.1 ≤ c.sh
  disj : (blocks c.hist).Pairwise fun a b => a.2 + a.1 ≤ b.2

theorem pending_update {n : Nat} (c : Config n Nat Nat Nat Nat) (t : Fin n) (x : Option (Active Nat Nat))
    (sh : Nat) (hist : List (Ev n Nat Nat)) :
    pending { sh := sh, th := Function.update c.th t x, hist := hist } + opOf (c.th t) = pending c + opOf x := by
  unfold pending
  have h1 := Finset.add_sum_erase Finset.univ (fun s => opOf (c.th s)) (Finset.mem_univ t)
  have h2 := Finset.add_sum_erase Finset.univ (fun s => opOf (Function.update c.th t x s)) (Finset.mem_univ t)
  have : ∑ s ∈ Finset.univ.erase t, opOf (Function.update c.th t x s) =
      ∑ s ∈ Finset.univ.erase t, opOf (c.th s) := by
    refine Finset.sum_congr rfl fun s hs => ?_
    rw [Function.update_of_ne (Finset.ne_of_mem_erase hs)]
  simp only [this, Function.update_self] at h2
  simp only
  omega

theorem requested_mono {n : Nat} {c c' : Config n Nat Nat Nat Nat} (h : Step counter (fun _ => True) c c') :
    requested c.hist ≤ requested c'.hist := by
  cases h with
  | call t op => simp only [requested_snoc]; omega
  | internal => exact le_rfl
  | ret => simp only [requested_snoc]; omega

theorem count_step {n : Nat} {c c' : Config n Nat Nat Nat Nat} (hb : requested c'.hist < 2 ^ 64 - 1)
    (hi : CountInv c) (h : Step counter (fun _ => True) c c') : CountInv c' := by
  cases h with
  | call t op hidle _ =>
    have hp := pending_update c t (some ⟨op, counter.start op, 0⟩) c.sh (c.hist ++ [.inv t op])
    rw [hidle] at hp
    simp only [opOf] at hp
    refine ⟨?_, hi.pos, ?_, ?_, ?_⟩
    · intro s a ha
      by_cases hs : s = t
      · subst hs
        simp only [Function.update_self, Option.some.injEq] at ha
        rw [← ha]; rfl
      · simp only [Function.update_of_ne hs] at ha
        exact hi.loc s a ha
    · have := hi.total
      simp only [requested_snoc] at hp ⊢
      omega
    · simpa only [blocks_snoc, List.append_nil] using hi.below
    · simpa only [blocks_snoc, List.append_nil] using hi.disj
  | internal t a s' l' _ hs => simp [counter] at hs
  | ret t a s' r hth hs =>
    simp only [counter, Option.some.injEq, Prod.mk.injEq, Sum.inr.injEq] at hs
    obtain ⟨rfl, rfl⟩ := hs
    have hloc := hi.loc t a hth
    have htot := hi.total
    have hp := pending_update c t none ((c.sh + a.loc) % 2 ^ 64) (c.hist ++ [.res t a.op c.sh])
    rw [hth] at hp
    simp only [opOf] at hp
    have hge : a.op ≤ pending c := by omega
    simp only [requested_snoc] at hb
    have hmod : (c.sh + a.loc) % 2 ^ 64 = c.sh + a.op := by
      rw [hloc, Nat.mod_eq_of_lt]; omega
    refine ⟨?_, ?_, ?_, ?_, ?_⟩
    · intro s b hb'
      by_cases hst : s = t
      · subst hst
        simp at hb'
      · simp only [Function.update_of_ne hst] at hb'
        exact hi.loc s b hb'
    · have := hi.pos
      simp only [hmod]
      omega
    · simp only [requested_snoc]
      rw [hmod] at hp ⊢
      omega
    · intro b hb'
      simp only [blocks_snoc, List.mem_append, List.mem_singleton] at hb'
      simp only [hmod]
      rcases hb' with hb' | rfl
      · have := hi.below b hb'; omega
      · exact ⟨hi.pos, le_rfl⟩
    · simp only [blocks_snoc]
      rw [List.pairwise_append]
      refine ⟨hi.disj, List.pairwise_singleton _ _, ?_⟩
      intro x hx y hy
      rw [List.mem_singleton] at hy
      subst hy
      exact (hi.below x hx).2

/-- **C55.** Whatever the interleaving of the threads, the blocks of simplex ids handed out to the concurrently
built triangulations are disjoint, do not contain zero, and do not reach the invalid id. -/
theorem C55_blocks {n : Nat} (c : Config n Nat Nat Nat Nat) (hr : Reach counter (fun _ => True) 1 c)
    (hb : requested c.hist < 2 ^ 64 - 1) :
    ((blocks c.hist).Pairwise fun a b => ∀ i, a.2 ≤ i → i < a.2 + a.1 → ¬ (b.2 ≤ i ∧ i < b.2 + b.1)) ∧
    ∀ b ∈ blocks c.hist, 1 ≤ b.2 ∧ b.2 + b.1 < 2 ^ 64 := by
  have hinv : CountInv c := by
    induction hr with
    | init =>
      refine ⟨fun t a h => by simp [Config.init] at h, le_rfl, ?_, fun b hb => ?_, ?_⟩
      · simp [Config.init, pending, requested, opOf]
      · simp [Config.init, blocks] at hb
      · simp [Config.init, blocks]
    | step hr hs ih => exact count_step hb (ih (lt_of_le_of_lt (requested_mono hs) hb)) hs
  refine ⟨hinv.disj.imp fun h i _ _ => by omega, fun b hbm => ?_⟩
  have h1 := hinv.below b hbm
  have h2 := hinv.total
  omega

/-- **C55.** The simplex with number `mid` of a triangulation that got the block of `lastId` ids at `start` has
an id in this block. -/
theorem C55_own (start lastId : Nat) (c : Cell) (hb : start + lastId < 2 ^ 64) (hc : c.mid < lastId) :
    start ≤ c.sid start ∧ c.sid start < start + lastId := by
  rw [Cell.sid, Nat.mod_eq_of_lt (by omega)]
  omega

/-- Two threads; the second one overtakes the first one. -/
example : Reach (n := 2) counter (fun _ => True) 1
    ⟨13, fun _ => none, [.inv 0 5, .inv 1 7, .res 1 7 1, .res 0 5 8]⟩ := by
  have h0 : Reach (n := 2) counter (fun _ => True) 1 (Config.init 2 1) := .init
  have h1 := h0.step (.call _ 0 5 rfl trivial)
  have h2 := h1.step (.call _ 1 7 rfl trivial)
  have h3 := h2.step (.ret _ 1 ⟨7, 7, 0⟩ _ _ rfl rfl)
  have h4 := h3.step (.ret _ 0 ⟨5, 5, 0⟩ _ _ rfl rfl)
  convert h4 using 1
  simp only [Config.init, List.nil_append, List.cons_append, Config.mk.injEq]
  refine ⟨rfl, ?_, rfl⟩
  funext t
  fin_cases t <;> rfl

/-! ### C78 -/

section collect
variable {D start lastId : Nat}

/-- What the loop does with one cell. -/
theorem collectCell_spec (T : Tri) (c : Cell) (hlen : c.vs.length = c.ns.length) (hle : c.vs.length ≤ 32768)
    (hr : c.sid start ∈ T.range) :
    ∃ (R : List (Nat × Nat)) (T1 : Tri), collectCell D start T c = some T1 ∧
      T1.range = T.range ∧ T1.mark = T.mark ∧
      T1.hull = (if vsFinite D c.vs then T.hull else T.hull ++ [c.sid start]) ∧
      T1.id = Function.update T.id (c.sid start) (c.sid start) ∧
      T1.vs = Function.update T.vs (c.sid start) (R.map (·.1)) ∧
      T1.ns = Function.update T.ns (c.sid start) (R.map (·.2)) ∧
      T1.mks = Function.update T.mks (c.sid start) 0 ∧
      (R.map (·.1)).Pairwise (· ≤ ·) ∧ R.Perm (c.vs.zip (c.nbrs start)) := by
  have hl : c.vs.length = (c.nbrs start).length := by rw [Cell.nbrs, List.length_map, hlen]
  obtain ⟨R, h1, h2, h3, _⟩ := Misc.C28_sort_with_data (c.vs.zip (c.nbrs start))
    (by rw [List.length_zip, ← hl, Nat.min_self]; exact hle)
  rw [List.map_fst_zip hl.le, List.map_snd_zip hl.ge] at h1
  have hf : vsFinite D (R.map (·.1)) = vsFinite D c.vs := by
    have hp : (R.map (·.1)).Perm c.vs := by
      have := h3.map (·.1)
      rwa [List.map_fst_zip hl.le] at this
    unfold vsFinite
    exact Bool.eq_iff_iff.mpr (by
      rw [List.all_eq_true, List.all_eq_true]
      exact forall_congr' fun v => by rw [hp.mem_iff])
  have he := rfl (a := collectCell D start T c)
  rw (occs := .pos [2]) [collectCell] at he
  simp only [h1, hr, if_true, hf] at he
  exact ⟨R, _, he, rfl, rfl, rfl, rfl, rfl, rfl, rfl, h2, h3⟩

theorem collectLoop_spec : ∀ (cells : List Cell) (T : Tri),
    (∀ c ∈ cells, c.vs.length = c.ns.length ∧ c.vs.length ≤ 32768 ∧ c.sid start ∈ T.range) →
    (cells.map (·.sid start)).Nodup →
    ∃ T', collectLoop D start T cells = some T' ∧ T'.range = T.range ∧ T'.mark = T.mark ∧
      T'.hull = T.hull ++ (cells.filter fun c => !vsFinite D c.vs).map (·.sid start) ∧
      (∀ i, (∀ c ∈ cells, c.sid start ≠ i) → T'.id i = T.id i ∧ T'.vs i = T.vs i ∧ T'.ns i = T.ns i ∧
        T'.mks i = T.mks i) ∧
      ∀ c ∈ cells, T'.id (c.sid start) = c.sid start ∧ T'.mks (c.sid start) = 0 ∧
        ∃ R : List (Nat × Nat), T'.vs (c.sid start) = R.map (·.1) ∧ T'.ns (c.sid start) = R.map (·.2) ∧
          (R.map (·.1)).Pairwise (· ≤ ·) ∧ R.Perm (c.vs.zip (c.nbrs start)) := by
  intro cells
  induction cells with
  | nil =>
    intro T _ _
    exact ⟨T, rfl, rfl, rfl, by simp, fun i _ => ⟨rfl, rfl, rfl, rfl⟩, fun c hc => by simp at hc⟩
  | cons c cells ih =>
    intro T hok hnd
    rw [List.map_cons, List.nodup_cons] at hnd
    obtain ⟨h1, h2, h3⟩ := hok c List.mem_cons_self
    obtain ⟨R, T1, hR, e1, e2, e3, e4, e5, e6, e7, hs, hp⟩ := collectCell_spec (D := D) T c h1 h2 h3
    obtain ⟨T', a1, a2, a3, a4, a5, a6⟩ := ih T1
      (fun c' hc' => by rw [e1]; exact hok c' (List.mem_cons_of_mem _ hc')) hnd.2
    have hnot : ∀ c' ∈ cells, c'.sid start ≠ c.sid start := fun c' hc' he =>
      hnd.1 (List.mem_map.mpr ⟨c', hc', he⟩)
    refine ⟨T', by simp only [collectLoop, hR]; exact a1, a2.trans e1, a3.trans e2, ?_, ?_, ?_⟩
    · rw [a4, e3, List.filter_cons]
      by_cases hf : vsFinite D c.vs = true <;> simp [hf]
    · intro i hi
      have hne := hi c List.mem_cons_self
      obtain ⟨b1, b2, b3, b4⟩ := a5 i (fun c' hc' => hi c' (List.mem_cons_of_mem _ hc'))
      rw [b1, b2, b3, b4, e4, e5, e6, e7]
      simp only [Function.update_of_ne (Ne.symm hne)]
      exact ⟨trivial, trivial, trivial, trivial⟩
    · intro c' hc'
      rcases List.mem_cons.mp hc' with rfl | hc'
      · obtain ⟨b1, b2, b3, b4⟩ := a5 (c'.sid start) hnot
        rw [b1, b2, b3, b4, e4, e5, e6, e7]
        simp only [Function.update_self]
        exact ⟨trivial, trivial, R, rfl, rfl, hs, hp⟩
      · exact a6 c' hc'

variable {K W : Type} [Field K] [LinearOrder K] [IsStrictOrderedRing K] [AddCommGroup W] [Module K W]
  [Module.Finite K W] {x : Nat → W} {h : Nat → K} {S : Finset Nat} {cells : List Cell}

/-- What is assumed of the triangulation computed by CGAL: its finite cells are the Delaunay simplices, without
repetition, with the neighbours opposite of the vertices; the numbers are those of the index handler (C23). -/
structure CgalOk (D : Nat) (x : Nat → W) (h : Nat → K) (S : Finset Nat) (lastId : Nat) (cells : List Cell) :
    Prop where
  len : ∀ c ∈ cells, c.vs.length = D + 1 ∧ c.ns.length = D + 1
  nodup : ∀ c ∈ cells, c.vs.Nodup
  ids : ∀ c ∈ cells, c.mid < lastId
  inj : (cells.map (·.mid)).Nodup
  del : ∀ t, Del.IsDel x h S t ↔ ∃ c ∈ cells, c.vs.toFinset = t
  once : ∀ c ∈ cells, ∀ c' ∈ cells, c.vs.toFinset = c'.vs.toFinset → c = c'
  nbr : ∀ c ∈ cells, ∀ d < D + 1,
    (∃ c' ∈ cells, c.ns.getD d none = some c'.mid ∧ c' ≠ c ∧ ∀ v ∈ c.vs, v ≠ c.vs.getD d 0 → v ∈ c'.vs) ∨
    (c.ns.getD d none = none ∧ ∀ c' ∈ cells, c' ≠ c → ∃ v ∈ c.vs, v ≠ c.vs.getD d 0 ∧ v ∉ c'.vs)

/-- **C78.** From a correct CGAL triangulation the base triangulator makes a triangulation that satisfies all
that the divide-and-conquer algorithm requires: sorted vertices, neighbours opposite of their vertices, exact
convex hull list, ids in its block. -/
theorem C78_collect (hD : D < 32768) (hb : start + lastId < 2 ^ 64) (hc : CgalOk D x h S lastId cells) :
    ∃ T, collect D start lastId cells = some T ∧ IsDT D x h S T ∧ T.MarksOk ∧ T.mark = 0 ∧
      ∀ i, i ∈ T.range ↔ start ≤ i ∧ i < start + lastId := by
  have hsid : ∀ c ∈ cells, c.sid start = start + c.mid := by
    intro c hcm
    have := hc.ids c hcm
    rw [Cell.sid, Nat.mod_eq_of_lt (by omega)]
  have hmod : (start + lastId) % 2 ^ 64 = start + lastId := Nat.mod_eq_of_lt hb
  have hsinj : ∀ c ∈ cells, ∀ c' ∈ cells, c.sid start = c'.sid start → c = c' := by
    intro c h1 c' h2 he
    rw [hsid c h1, hsid c' h2] at he
    exact List.inj_on_of_nodup_map hc.inj h1 h2 (by omega)
  have hsnd : (cells.map (·.sid start)).Nodup :=
    (List.nodup_map_iff_inj_on (List.Nodup.of_map _ hc.inj)).mpr (fun c h1 c' h2 => hsinj c h1 c' h2)
  obtain ⟨T, a1, a2, a3, a4, a5, a6⟩ := collectLoop_spec (D := D) (start := start) cells
    { range := Finset.Ico start ((start + lastId) % 2 ^ 64), id := fun _ => sINF, vs := fun _ => [],
      ns := fun _ => [], mks := fun _ => 0, hull := [], mark := 0 }
    (fun c hcm => by
      obtain ⟨h1, h2⟩ := hc.len c hcm
      refine ⟨h1.trans h2.symm, by omega, ?_⟩
      have := hc.ids c hcm
      rw [hsid c hcm, Finset.mem_Ico, hmod]
      omega) hsnd
  simp only at a2 a3 a4 a5
  have hrange : ∀ i, i ∈ T.range ↔ start ≤ i ∧ i < start + lastId := by
    intro i
    rw [a2, Finset.mem_Ico, hmod]
  have hcont : ∀ i, T.contains i = true ↔ ∃ c ∈ cells, c.sid start = i := by
    intro i
    rw [Tri.contains_iff]
    constructor
    · rintro ⟨_, h2⟩
      by_contra hn
      push_neg at hn
      exact h2 (a5 i hn).1
    · rintro ⟨c, hcm, rfl⟩
      have := hc.ids c hcm
      refine ⟨?_, ?_⟩
      · rw [hrange, hsid c hcm]; omega
      · rw [(a6 c hcm).1, hsid c hcm, sINF]; omega
  have hlz : ∀ c ∈ cells, c.vs.length = (c.nbrs start).length := by
    intro c hcm
    rw [Cell.nbrs, List.length_map, (hc.len c hcm).1, (hc.len c hcm).2]
  have hvs : ∀ c ∈ cells, (T.vs (c.sid start)).Perm c.vs := by
    intro c hcm
    obtain ⟨_, _, R, r1, _, _, r4⟩ := a6 c hcm
    have := r4.map (·.1)
    rwa [List.map_fst_zip (hlz c hcm).le, ← r1] at this
  have hset : ∀ c ∈ cells, (T.vs (c.sid start)).toFinset = c.vs.toFinset := fun c hcm =>
    List.toFinset_eq_of_perm _ _ (hvs c hcm)
  have hdel : ∀ c ∈ cells, Del.IsDel x h S c.vs.toFinset := fun c hcm => (hc.del _).mpr ⟨c, hcm, rfl⟩
  refine ⟨T, a1, ⟨?_, ?_, ?_, ?_, ?_, ?_, ?_, ?_⟩, ?_, a3, hrange⟩
  · intro i hi
    obtain ⟨c, hcm, rfl⟩ := (hcont i).mp hi
    rw [hset c hcm]
    exact hdel c hcm
  · intro t ht
    obtain ⟨c, hcm, rfl⟩ := (hc.del t).mp ht
    exact ⟨_, (hcont _).mpr ⟨c, hcm, rfl⟩, hset c hcm⟩
  · intro i j hi hj he
    obtain ⟨c, hcm, rfl⟩ := (hcont i).mp hi
    obtain ⟨c', hcm', rfl⟩ := (hcont j).mp hj
    rw [hset c hcm, hset c' hcm'] at he
    rw [hc.once c hcm c' hcm' he]
  · intro i hi
    obtain ⟨c, hcm, rfl⟩ := (hcont i).mp hi
    obtain ⟨_, _, R, r1, _, r3, _⟩ := a6 c hcm
    have hnd := ((hvs c hcm).nodup_iff).mpr (hc.nodup c hcm)
    rw [r1] at hnd ⊢
    exact (r3.and hnd).imp fun hab => lt_of_le_of_ne hab.1 hab.2
  · intro i hi
    obtain ⟨c, hcm, rfl⟩ := (hcont i).mp hi
    exact (a6 c hcm).1
  · intro i hi
    obtain ⟨c, hcm, rfl⟩ := (hcont i).mp hi
    obtain ⟨_, _, R, _, r2, _, r4⟩ := a6 c hcm
    rw [r2, List.length_map, r4.length_eq, List.length_zip, ← hlz c hcm, Nat.min_self, (hc.len c hcm).1]
  · intro i hi d hd
    obtain ⟨c, hcm, rfl⟩ := (hcont i).mp hi
    obtain ⟨_, _, R, r1, r2, _, r4⟩ := a6 c hcm
    have hRl : R.length = D + 1 := by
      rw [r4.length_eq, List.length_zip, ← hlz c hcm, Nat.min_self, (hc.len c hcm).1]
    obtain ⟨e, he, hz⟩ : ∃ e, e < D + 1 ∧ (R.getD d (0, 0)) = (c.vs.getD e 0, (c.nbrs start).getD e 0) := by
      have hm : R.getD d (0, 0) ∈ c.vs.zip (c.nbrs start) := by
        rw [← r4.mem_iff, List.getD_eq_getElem _ _ (by omega)]
        exact List.getElem_mem _
      obtain ⟨e, he, hze⟩ := List.getElem_of_mem hm
      have he' : e < c.vs.length ∧ e < (c.nbrs start).length := by
        rw [List.length_zip] at he; omega
      refine ⟨e, by rw [(hc.len c hcm).1] at he'; exact he'.1, ?_⟩
      rw [← hze, List.getElem_zip, List.getD_eq_getElem _ _ he'.1, List.getD_eq_getElem _ _ he'.2]
    have hvd : (T.vs (c.sid start)).getD d 0 = c.vs.getD e 0 := by
      have := congrArg Prod.fst hz
      rw [r1]
      rw [List.getD_eq_getElem _ _ (by omega)] at this
      rw [List.getD_eq_getElem _ _ (by rw [List.length_map]; omega), List.getElem_map]
      exact this
    have hnd : (T.ns (c.sid start)).getD d 0 = (c.nbrs start).getD e 0 := by
      have := congrArg Prod.snd hz
      rw [r2]
      rw [List.getD_eq_getElem _ _ (by omega)] at this
      rw [List.getD_eq_getElem _ _ (by rw [List.length_map]; omega), List.getElem_map]
      exact this
    have hmem : c.vs.getD e 0 ∈ c.vs.toFinset := by
      rw [List.mem_toFinset, List.getD_eq_getElem _ _ (by rw [(hc.len c hcm).1]; exact he)]
      exact List.getElem_mem _
    have hnb : (c.nbrs start).getD e 0 = match c.ns.getD e none with
        | none => sINF | some m => (start + m) % 2 ^ 64 := by
      have h1 : e < c.ns.length := by rw [(hc.len c hcm).2]; exact he
      rw [List.getD_eq_getElem _ _ h1, Cell.nbrs, List.getD_eq_getElem _ _ (by rw [List.length_map]; exact h1),
        List.getElem_map]
      cases c.ns[e] <;> rfl
    rw [hnd, hvd, hset c hcm, hnb]
    rcases hc.nbr c hcm e he with ⟨c', hcm', h1, h2, h3⟩ | ⟨h1, h2⟩
    · left
      rw [h1]
      have hs : (start + c'.mid) % 2 ^ 64 = c'.sid start := rfl
      simp only [hs]
      refine ⟨(hcont _).mpr ⟨c', hcm', rfl⟩, ?_⟩
      rw [hset c' hcm']
      refine Del.across_of_facet (hdel c hcm) (hdel c' hcm') hmem (fun heq => h2 (hc.once _ hcm' _ hcm heq)) ?_
      intro v hv
      obtain ⟨v1, v2⟩ := Finset.mem_erase.mp hv
      exact List.mem_toFinset.mpr (h3 v (List.mem_toFinset.mp v2) v1)
    · right
      rw [h1]
      refine ⟨rfl, fun t ht ha => ?_⟩
      obtain ⟨c', hcm', rfl⟩ := (hc.del t).mp ht
      have hne : c' ≠ c := by
        rintro rfl
        obtain ⟨_, u, hu, hu2⟩ := ha
        have : u ∈ c'.vs.toFinset := by rw [hu2]; exact Finset.mem_insert_self _ _
        exact hu this
      obtain ⟨v, v1, v2, v3⟩ := h2 c' hcm' hne
      exact v3 (List.mem_toFinset.mp (ha.facet (Finset.mem_erase.mpr ⟨v2, List.mem_toFinset.mpr v1⟩)))
  · rw [List.nil_append] at a4
    constructor
    · rw [a4]
      exact (hsnd.sublist (List.filter_sublist.map _))
    · intro i
      rw [a4, List.mem_map, hcont]
      constructor
      · rintro ⟨c, hcf, rfl⟩
        obtain ⟨hcm, hf⟩ := List.mem_filter.mp hcf
        refine ⟨⟨c, hcm, rfl⟩, ?_⟩
        have : vsFinite D (T.vs (c.sid start)) = vsFinite D c.vs := by
          unfold vsFinite
          exact Bool.eq_iff_iff.mpr (by
            rw [List.all_eq_true, List.all_eq_true]
            exact forall_congr' fun v => by rw [(hvs c hcm).mem_iff])
        rw [this]
        simpa using hf
      · rintro ⟨⟨c, hcm, rfl⟩, hf⟩
        refine ⟨c, List.mem_filter.mpr ⟨hcm, ?_⟩, rfl⟩
        have : vsFinite D (T.vs (c.sid start)) = vsFinite D c.vs := by
          unfold vsFinite
          exact Bool.eq_iff_iff.mpr (by
            rw [List.all_eq_true, List.all_eq_true]
            exact forall_congr' fun v => by rw [(hvs c hcm).mem_iff])
        rw [this] at hf
        simp [hf]
  · intro i hi
    rw [a3]
    by_cases hn : ∃ c ∈ cells, c.sid start = i
    · obtain ⟨c, hcm, rfl⟩ := hn
      exact (a6 c hcm).2.1.le
    · push_neg at hn
      exact (a5 i hn).2.2.2.le

/-- Every configuration has a triangulation that CGAL may return. -/
theorem CgalOk.exists (hdim : Module.finrank K W = D + 1) (x : Nat → W) (h : Nat → K) (S : Finset Nat) :
    ∃ cells, CgalOk D x h S (2 ^ S.card) cells := by
  classical
  let L : List (Finset Nat) := (S.powerset.filter fun t => Del.IsDel x h S t).toList
  have hL : ∀ t, t ∈ L ↔ Del.IsDel x h S t := by
    intro t
    rw [Finset.mem_toList, Finset.mem_filter, Finset.mem_powerset]
    exact ⟨fun h => h.2, fun h => ⟨h.1, h⟩⟩
  have hnd : L.Nodup := Finset.nodup_toList _
  have hlen : L.length ≤ 2 ^ S.card := by
    rw [Finset.length_toList, ← Finset.card_powerset]
    exact Finset.card_filter_le _ _
  let vs : Nat → List Nat := fun k => (L.getD k ∅).sort (· ≤ ·)
  have hvs : ∀ k, (vs k).toFinset = L.getD k ∅ := fun k => Finset.sort_toFinset _ _
  let P : Nat → Nat → Nat → Prop := fun k d k' => k' < L.length ∧ k' ≠ k ∧ ∀ v ∈ vs k, v ≠ (vs k).getD d 0 → v ∈ vs k'
  let nb : Nat → Nat → Option Nat := fun k d => if hex : ∃ k', P k d k' then some hex.choose else none
  let cell : Nat → Cell := fun k => ⟨k, vs k, (List.range (D + 1)).map (nb k)⟩
  have hmem : ∀ c, c ∈ (List.range L.length).map cell ↔ ∃ k < L.length, c = cell k := by
    intro c
    simp only [List.mem_map, List.mem_range]
    exact ⟨fun ⟨k, h1, h2⟩ => ⟨k, h1, h2.symm⟩, fun ⟨k, h1, h2⟩ => ⟨k, h1, h2.symm⟩⟩
  have hLk : ∀ k < L.length, Del.IsDel x h S (L.getD k ∅) := by
    intro k hk
    rw [List.getD_eq_getElem _ _ hk]
    exact (hL _).mp (List.getElem_mem hk)
  have hcard : ∀ k < L.length, (vs k).length = D + 1 := by
    intro k hk
    rw [← hdim, ← (hLk k hk).2.1.1]
    exact Finset.length_sort _
  refine ⟨(List.range L.length).map cell, ?_, ?_, ?_, ?_, ?_, ?_, ?_⟩
  · intro c hc
    obtain ⟨k, hk, rfl⟩ := (hmem c).mp hc
    exact ⟨hcard k hk, by simp [cell]⟩
  · intro c hc
    obtain ⟨k, hk, rfl⟩ := (hmem c).mp hc
    exact Finset.sort_nodup _ _
  · intro c hc
    obtain ⟨k, hk, rfl⟩ := (hmem c).mp hc
    exact lt_of_lt_of_le hk hlen
  · rw [List.map_map]
    exact List.nodup_range.map (fun a b h => h)
  · intro t
    rw [← hL]
    constructor
    · intro ht
      obtain ⟨k, hk, rfl⟩ := List.getElem_of_mem ht
      exact ⟨cell k, (hmem _).mpr ⟨k, hk, rfl⟩, (hvs k).trans (List.getD_eq_getElem _ _ hk)⟩
    · rintro ⟨c, hc, rfl⟩
      obtain ⟨k, hk, rfl⟩ := (hmem c).mp hc
      rw [hL]
      have := hLk k hk
      rwa [← hvs] at this
  · intro c hc c' hc' he
    obtain ⟨k, hk, rfl⟩ := (hmem c).mp hc
    obtain ⟨k', hk', rfl⟩ := (hmem c').mp hc'
    have he' : L.getD k ∅ = L.getD k' ∅ := by rw [← hvs, ← hvs]; exact he
    rw [List.getD_eq_getElem _ _ hk, List.getD_eq_getElem _ _ hk', hnd.getElem_inj_iff] at he'
    rw [he']
  · intro c hc d hd
    obtain ⟨k, hk, rfl⟩ := (hmem c).mp hc
    have hn : (cell k).ns.getD d none = nb k d := by
      simp only [cell]
      rw [List.getD_eq_getElem _ _ (by simpa using hd)]
      simp
    rw [hn]
    by_cases hex : ∃ k', P k d k'
    · left
      obtain ⟨h1, h2, h3⟩ := hex.choose_spec
      refine ⟨cell hex.choose, (hmem _).mpr ⟨_, h1, rfl⟩, dif_pos hex, ?_, h3⟩
      intro he
      exact h2 (congrArg Cell.mid he)
    · right
      refine ⟨dif_neg hex, fun c' hc' hne => ?_⟩
      obtain ⟨k', hk', rfl⟩ := (hmem c').mp hc'
      by_contra hcon
      push_neg at hcon
      exact hex ⟨k', hk', fun he => hne (by rw [he]), hcon⟩

end collect

/-! ### The divide-and-conquer triangulator with this base triangulator -/

section
open Del Euc
variable {K : Type} [Field K] [LinearOrder K] [IsStrictOrderedRing K]
variable {D : Nat} {pts : Nat → Vec D K} {h : Nat → K} {S S₀ : Finset Nat} {T : Tri}

/-- Results of the base triangulator for a result `cells` of CGAL with a block of ids. -/
def cgalBase (D : Nat) (cgal : Finset Nat → Nat → List Cell → Prop) (S : Finset Nat) (T : Tri) : Prop :=
  ∃ start lastId cells, start + lastId < 2 ^ 64 ∧ cgal S lastId cells ∧ collect D start lastId cells = some T

theorem baseOk_cgal (hD : D < 32768) (cgal : Finset Nat → Nat → List Cell → Prop)
    (hcgal : ∀ S lastId cells, infPts D ⊆ S → S ⊆ S₀ → cgal S lastId cells →
      CgalOk D (fun i => hom (pts i)) h S lastId cells) :
    BaseOk pts h (cgalBase D cgal) S₀ := by
  rintro S T hI hS ⟨start, lastId, cells, hb, hc, hT⟩
  obtain ⟨T', h1, h2, h3, h4, _⟩ := C78_collect hD hb (hcgal S lastId cells hI hS hc)
  rw [h1] at hT
  cases hT
  exact ⟨h2, h3, h4⟩

/-- **C52 (with the base triangulator of the program).** Only the triangulation computed by CGAL is assumed to be
right. -/
theorem C52_cgal {hash : Nat → BitVec 32} {depth cutoff : Nat} {parEdge : Bool} {sp : Part.Splitter}
    {big tiny : K} {cs : List Nat → Sphere D K} (cgal : Finset Nat → Nat → List Cell → Prop)
    (hs : Scene D pts S₀) (hq : SettingOk depth cutoff sp big tiny pts cs S₀) (ht : Tie pts h S₀)
    (hcgal : ∀ S lastId cells, infPts D ⊆ S → S ⊆ S₀ → cgal S lastId cells →
      CgalOk D (fun i => hom (pts i)) h S lastId cells)
    (hT : Triangulate (params hash depth cutoff parEdge (cgalBase D cgal) sp big tiny pts cs) 1 S₀ T) :
    Delaunay D pts S₀ T :=
  C52_delaunay hs hq ht (baseOk_cgal (by have := hq.dim; omega) cgal hcgal) hT

/-- The hypotheses of C78 hold for the sample of C52. -/
example : ∃ h cells T, Tie (ctorPoints 100 1000000 (1 / 1000) samplePts [[4, 2], [], [1, 3]]) h ({1, 2, 3, 4} ∪ infPts 2) ∧
    CgalOk 2 (fun i => hom (ctorPoints 100 1000000 (1 / 1000) samplePts [[4, 2], [], [1, 3]] i)) h
      ({1, 2, 3, 4} ∪ infPts 2) (2 ^ 8) cells ∧ collect 2 1 (2 ^ 8) cells = some T := by
  have hs := sampleInput.scene (by omega) sampleFar sampleInj
  obtain ⟨h, ht⟩ := Tie.exists hs.distinct
  obtain ⟨cells, hc⟩ := CgalOk.exists (D := 2) finrank_hom
    (fun i => hom (ctorPoints 100 1000000 (1 / 1000) samplePts [[4, 2], [], [1, 3]] i)) h ({1, 2, 3, 4} ∪ infPts 2)
  have hcard : (({1, 2, 3, 4} : Finset Nat) ∪ infPts 2).card = 8 := by decide
  rw [hcard] at hc
  obtain ⟨T, hT, _⟩ := C78_collect (start := 1) (by omega) (by norm_num) hc
  exact ⟨h, cells, T, ht, hc, hT⟩

end

end DC
end Verif
