import Verif.Props.Merge
import Verif.Lemmas.Probe
import Mathlib.Tactic.Ring
import Mathlib.Tactic.Linarith

/-!
# Size of the face index: C105

`buildWhereUsed` constructs the face index with room for `(D+1)^3` faces per edge simplex
(/repo/src/lib/DCTriangulator.cpp:192). The index is a growing multimap, which grows when it is half
full; growing while other threads insert may lose entries (`C104_lost_value_violated`).
-/
namespace Verif
namespace DC
open Work

/-- Number of insertions that a body of the loop of `buildWhereUsed` may still perform. -/
def owed (D : Nat) : WuL → Nat
  | .chk _ => (D + 1) * (D + 1)
  | .setDone _ => (D + 1) * (D + 1)
  | .nb _ ns => (D + 1) * ns.length
  | .setq _ _ ns => (D + 1) * (ns.length + 1)
  | .ins _ _ i ns => (D + 1 - i) + (D + 1) * ns.length

/-- The body works on an edge simplex. -/
def onEdge (edge : Finset Nat) : WuL → Prop
  | .chk e => e ∈ edge
  | .setDone e => e ∈ edge
  | .nb e _ => e ∈ edge
  | .setq e _ _ => e ∈ edge
  | .ins e _ _ _ => e ∈ edge

theorem owed_step {D : Nat} {hash : Nat → BitVec 32} {T : Tri} {edge : Finset Nat}
    (hn : ∀ e ∈ edge, (T.ns e).length ≤ D + 1) {l : WuL} {s s' : WuSt} {l' : Option WuL}
    {fed : List Nat} (h : (wuProg D hash T edge).step l s = some (s', l', fed))
    (he : onEdge edge l) :
    fed = [] ∧ (∀ x ∈ l', onEdge edge x) ∧
      s'.wu.length + (l'.elim 0 (owed D)) ≤ s.wu.length + owed D l := by
  simp only [wuProg] at h
  cases l with
  | chk e =>
    simp only [wuStep] at h
    split_ifs at h <;> cases h
    · exact ⟨rfl, by simp, by simp⟩
    · exact ⟨rfl, by simpa [onEdge] using he, Nat.le_refl _⟩
  | setDone e =>
    cases h
    refine ⟨rfl, by simpa [onEdge] using he, ?_⟩
    simp only [Option.elim, owed]
    have := Nat.mul_le_mul_left (D + 1) (hn e he)
    omega
  | nb e l =>
    cases l with
    | nil => cases h; exact ⟨rfl, by simp, by simp⟩
    | cons n l =>
      simp only [wuStep] at h
      split_ifs at h <;> cases h
      · exact ⟨rfl, by simpa [onEdge] using he, Nat.le_refl _⟩
      · refine ⟨rfl, by simpa [onEdge] using he, ?_⟩
        simp only [Option.elim, owed, List.length_cons, Nat.mul_add]
        omega
      · refine ⟨rfl, by simpa [onEdge] using he, ?_⟩
        simp only [Option.elim, owed, List.length_cons, Nat.mul_add]
        omega
  | setq e n l =>
    cases h
    refine ⟨rfl, by simpa [onEdge] using he, ?_⟩
    simp only [Option.elim, owed, Nat.mul_add]
    omega
  | ins e n i l =>
    simp only [wuStep] at h
    split_ifs at h <;> cases h
    · refine ⟨rfl, by simpa [onEdge] using he, ?_⟩
      simp only [Option.elim, owed, List.length_cons]
      omega
    · refine ⟨rfl, by simpa [onEdge] using he, ?_⟩
      simp only [Option.elim, owed]
      omega

/-- **C105.** Whatever the schedule, at every moment of `buildWhereUsed` at most `(D+1)^2` insertions
per edge simplex have been performed, even though the test and the change of the mark are not atomic
and a simplex may therefore be inserted several times. -/
theorem C105_insertions (D : Nat) (hash : Nat → BitVec 32) (T : Tri) (edge : Finset Nat)
    (hn : ∀ e ∈ edge, (T.ns e).length ≤ D + 1) (c : Cfg WuSt WuL Nat)
    (h : Work.Reach (wuProg D hash T edge) ⟨T.mks, []⟩ edge.val c) :
    c.sh.wu.length ≤ (D + 1) ^ 2 * edge.card := by
  have key := Work.Reach.invariant h (fun c => (∀ e ∈ c.queue, e ∈ edge) ∧
      (∀ l ∈ c.act, onEdge edge l) ∧
      c.sh.wu.length + (D + 1) * (D + 1) * c.queue.card + (c.act.map (owed D)).sum ≤
        (D + 1) * (D + 1) * edge.card)
    ⟨fun e he => he, by simp, by simp⟩ ?_ ?_ ?_
  · have := key.2.2
    rw [pow_two]
    omega
  · rintro sh i q act ⟨h1, h2, h3⟩
    rw [forall_mem_cons] at h1
    refine ⟨h1.2, ?_, ?_⟩
    · rw [forall_mem_cons]
      exact ⟨h1.1, h2⟩
    · simp only [Multiset.card_cons, Multiset.map_cons, Multiset.sum_cons] at h3 ⊢
      simp only [wuProg, owed]
      rw [Nat.mul_add] at h3
      omega
  · rintro sh q l act sh' l' fed hst ⟨h1, h2, h3⟩
    rw [forall_mem_cons] at h2
    obtain ⟨rfl, h4, h5⟩ := owed_step hn hst h2.1
    refine ⟨by simpa using h1, ?_, ?_⟩
    · rw [forall_mem_cons]
      exact ⟨h4 l' rfl, h2.2⟩
    · simp only [Multiset.map_cons, Multiset.sum_cons, Option.elim, Multiset.coe_nil, zero_add]
        at h3 h5 ⊢
      omega
  · rintro sh q l act sh' fed hst ⟨h1, h2, h3⟩
    rw [forall_mem_cons] at h2
    obtain ⟨rfl, h4, h5⟩ := owed_step hn hst h2.1
    refine ⟨by simpa using h1, h2.2, ?_⟩
    simp only [Multiset.map_cons, Multiset.sum_cons, Option.elim, Multiset.coe_nil, zero_add]
        at h3 h5 ⊢
    omega

/-- The capacity of the face index: the constructor is called with `(D+1)^3` times the number of edge
simplices (DCTriangulator.cpp:192) and rounds up to a power of two (LP_MultiMap.hxx:364-376). -/
def indexCapacity (D edges : Nat) : Nat := nextPow2 ((D + 1) * (D + 1) * (D + 1) * edges)

theorem half_capacity (D edges : Nat) :
    (D + 1) ^ 3 * edges ≤ 2 * (indexCapacity D edges / 2) + 1 := by
  have h := le_nextPow2 ((D + 1) * (D + 1) * (D + 1) * edges)
  have : (D + 1) ^ 3 * edges = (D + 1) * (D + 1) * (D + 1) * edges := by ring
  unfold indexCapacity
  omega

/-- **C105.** The face index does not grow in `buildWhereUsed`: at every moment of every schedule the
number of insertions is at most half the capacity of the index (the hypothesis of
`GrowingMM.C104_no_growth`). -/
theorem C105_build_no_growth (D : Nat) (hD : 1 ≤ D) (hash : Nat → BitVec 32) (T : Tri)
    (edge : Finset Nat) (hn : ∀ e ∈ edge, (T.ns e).length ≤ D + 1) (c : Cfg WuSt WuL Nat)
    (h : Work.Reach (wuProg D hash T edge) ⟨T.mks, []⟩ edge.val c) :
    c.sh.wu.length ≤ indexCapacity D edge.card / 2 := by
  have h1 := C105_insertions D hash T edge hn c h
  have h2 := half_capacity D edge.card
  have h3 : 2 * ((D + 1) ^ 2 * edge.card) ≤ (D + 1) ^ 3 * edge.card := by
    have : (D + 1) ^ 3 * edge.card = (D + 1) * ((D + 1) ^ 2 * edge.card) := by ring
    rw [this]
    exact Nat.mul_le_mul_right _ (by omega)
  by_cases h4 : edge.card = 0
  · rw [h4] at h1
    simp only [Nat.mul_zero] at h1
    omega
  · omega

theorem mergeLoop_size {D : Nat} {K : Type} {hash : Nat → BitVec 32}
    {ps : List (Part.Partition D K)} {M edge : Tri} {del : List Nat} :
    ∀ (order : List Nat) (s st : MergeSt), order.foldlM (mergeStep hash ps M del edge) s = some st →
      st.wu.length + (D + 1) * s.ins.length = s.wu.length + (D + 1) * st.ins.length
  | [], s, st, h => by
    simp only [List.foldlM_nil, Option.pure_def, Option.some.injEq] at h
    subst h
    omega
  | i :: order, s, st, h => by
    rw [List.foldlM_cons] at h
    cases h1 : mergeStep hash ps M del edge s i with
    | none => rw [h1] at h; cases h
    | some s1 =>
      rw [h1] at h
      have ih := mergeLoop_size order s1 st h
      unfold mergeStep at h1
      rw [Option.map_eq_some_iff] at h1
      obtain ⟨b, _, hb⟩ := h1
      cases b with
      | false =>
        simp only [Bool.false_eq_true, if_false] at hb
        subst hb
        exact ih
      | true =>
        simp only [if_true] at hb
        subst hb
        simp only [List.length_append, List.length_singleton, Nat.mul_add] at ih
        have hlen : ∀ (l : List Nat) (w : List (BitVec 32 × Nat)),
            (l.foldl (fun w d => (faceKey hash (edge.vs i) d, i) :: w) w).length =
              w.length + l.length := by
          intro l
          induction l with
          | nil => intro w; rfl
          | cons a l ihl =>
            intro w
            rw [List.foldl_cons, ihl]
            simp only [List.length_cons]
            omega
        rw [hlen, List.length_range] at ih
        omega

/-- **C105.** In the whole of `mergeTriangulation` the face index receives at most `(D+1)^2` faces
per edge simplex and `D+1` faces per simplex inserted from the triangulation of the edge. Hence it does
not grow, if at most `(D^2-1)/2` times as many simplices are inserted as there are edge simplices. -/
theorem C105_merge_no_growth {D : Nat} {K : Type} (hash : Nat → BitVec 32)
    (ps : List (Part.Partition D K)) (dts : List Tri) (edgeSimps : Finset Nat) (edge M : Tri)
    (ins : List Nat) (wu : List (BitVec 32 × Nat))
    (hn : ∀ T ∈ dts, ∀ e ∈ T.range, (T.ns e).length ≤ D + 1)
    (h : MergePre hash ps dts edgeSimps edge M ins wu) :
    wu.length ≤ (D + 1) ^ 2 * edgeSimps.card + (D + 1) * ins.length ∧
    (2 * ins.length + edgeSimps.card ≤ D * D * edgeSimps.card →
      wu.length ≤ indexCapacity D edgeSimps.card / 2) := by
  obtain ⟨d0, rest, M1, M2, wu1, del, order, st, rfl, hfil, ⟨mks, hf, -⟩, hdel, hsort, hord, hloop,
    rfl, rfl, rfl⟩ := h
  have hM1 : ∀ e ∈ edgeSimps, (M1.ns e).length ≤ D + 1 := by
    have hmerge : ∀ (rest : List Tri) (d0 : Tri),
        (∀ T ∈ d0 :: rest, ∀ e ∈ T.range, (T.ns e).length ≤ D + 1) →
        ∀ e ∈ (rest.foldl (fun m d => m.merge d true) d0).range,
          ((rest.foldl (fun m d => m.merge d true) d0).ns e).length ≤ D + 1 := by
      intro rest
      induction rest with
      | nil => intro d0 hd; exact hd d0 (by simp)
      | cons d rest ih =>
        intro d0 hd
        rw [List.foldl_cons]
        refine ih _ ?_
        intro T hT e he
        rcases List.mem_cons.1 hT with rfl | hT
        · simp only [Tri.merge, Finset.mem_union] at he ⊢
          split
          · exact hd d0 (by simp) e (by assumption)
          · rename_i hne
            exact hd d (by simp) e (he.resolve_left hne)
        · exact hd T (by simp [hT]) e he
    unfold Tri.filter at hfil
    split_ifs at hfil with hsub
    simp only [Option.some.injEq] at hfil
    subst hfil
    exact fun e he => hmerge rest d0 hn e (hsub he)
  have h1 := C105_insertions D hash M1 edgeSimps hM1 _ hf
  have h2 := mergeLoop_size order _ _ hloop
  simp only [List.length_nil, Nat.mul_zero, Nat.add_zero] at h1 h2
  refine ⟨by omega, fun hle => ?_⟩
  have h3 := half_capacity D edgeSimps.card
  have h4 : 2 * ((D + 1) ^ 2 * edgeSimps.card + (D + 1) * st.ins.length) ≤
      (D + 1) ^ 3 * edgeSimps.card := by
    have e1 : (D + 1) ^ 3 * edgeSimps.card =
        2 * ((D + 1) ^ 2 * edgeSimps.card) + (D + 1) * (D * D * edgeSimps.card) -
          (D + 1) * edgeSimps.card := by
      have : (D + 1) ^ 3 * edgeSimps.card + (D + 1) * edgeSimps.card =
        2 * ((D + 1) ^ 2 * edgeSimps.card) + (D + 1) * (D * D * edgeSimps.card) := by ring
      omega
    have e2 := Nat.mul_le_mul_left (D + 1) hle
    rw [Nat.mul_add] at e2
    have e3 : (D + 1) * (2 * st.ins.length) = 2 * ((D + 1) * st.ins.length) := by ring
    omega
  omega

/-- The hypotheses of `C105_build_no_growth` are met: a run on two edge simplices of the chain that
enters the faces of simplex 3. -/
example (hash : Nat → BitVec 32) : ∃ T' wu, BuildWhereUsed 2 hash chain {1, 2} T' wu ∧
    (faceKey hash [3, 4, 5] 1, 3) ∈ wu ∧
    ∀ e ∈ ({1, 2} : Finset Nat), (chain.ns e).length ≤ 2 + 1 := by
  have hn : ∀ e ∈ ({1, 2} : Finset Nat), ∀ n ∈ chain.ns e, n ≠ sINF → n ∈ chain.range := by
    intro e he n hn hf
    simp only [Finset.mem_insert, Finset.mem_singleton] at he
    rcases he with rfl | rfl <;> simp [chain] at hn <;>
      simp only [chain, Finset.mem_insert, Finset.mem_singleton] <;> omega
  obtain ⟨T', wu, h⟩ := buildWhereUsed_exists 2 hash chain {1, 2} (by decide) (by decide)
    (fun _ _ => le_refl _) hn
  refine ⟨T', wu, h, ?_, ?_⟩
  · rw [C48_buildWhereUsed 2 hash chain T' {1, 2} wu (by decide) (by decide) (fun _ _ => le_refl _)
      hn h]
    exact ⟨⟨by decide, by decide, 2, by decide, by simp [chain]⟩, 1, by omega, rfl⟩
  · intro e he
    simp only [Finset.mem_insert, Finset.mem_singleton] at he
    rcases he with rfl | rfl <;> simp [chain]

/-- The hypotheses of `C105_merge_no_growth` are met by the merge of two points. -/
example (hash : Nat → BitVec 32) : ∃ M ins wu,
    MergePre hash segParts [seg1 10 1, seg1 20 2] {11, 20} seg2 M ins wu ∧
    ∀ T ∈ [seg1 10 1, seg1 20 2], ∀ e ∈ T.range, (T.ns e).length ≤ 1 + 1 := by
  obtain ⟨R, hR⟩ := C49_mergeTriangulation_exists hash segParts [seg1 10 1, seg1 20 2] {11, 20} seg2
    segs_in (by simp) (by
      intro i hi
      rcases seg2_contains hi with rfl | rfl | rfl
      · exact ⟨1, rfl, _, List.mem_cons_self, by simp⟩
      · exact ⟨1, rfl, _, List.mem_cons_self, by simp⟩
      · exact ⟨2, rfl, _, List.mem_cons_of_mem _ List.mem_cons_self, by simp⟩)
    (by
      intro T hT i hi
      simp only [List.mem_cons, List.not_mem_nil, or_false] at hT
      rcases hT with rfl | rfl | rfl <;> simp only [seg1, seg2] <;> split_ifs <;> rfl)
  obtain ⟨M, ins, wu, h, _⟩ := mergeTri_iff.1 hR
  refine ⟨M, ins, wu, h, ?_⟩
  intro T hT e he
  simp only [List.mem_cons, List.not_mem_nil, or_false] at hT
  rcases hT with rfl | rfl <;> simp only [seg1] <;> split_ifs <;> simp

end DC
end Verif
