import Verif.Model.LogIndent

/-!
# C134: the indentation of the log
-/
namespace Verif
namespace Indent

mutual
/-- The height of the recursion. -/
def Shape.height : Shape → Nat
  | .direct => 0
  | .base => 0
  | .node ps _ e _ => max (heightL ps) e.height + 1
def heightL : List Shape → Nat
  | [] => 0
  | p :: ps => max p.height (heightL ps)
end

/-- Every execution of `c` with indentation in `pre` before leaves indentation `post` and logs with indentations from
`lo` to `hi`. -/
def Spec (pre : Nat → Prop) (c : Code) (post : Nat) (lo hi : Nat) : Prop :=
  ∀ st st' o, pre st.ind → Steps true c st st' o → st'.ind = post ∧ ∀ x ∈ o, lo ≤ x ∧ x ≤ hi

theorem up_of {s : Nat} (h : s + 1 < 2 ^ 32) : up s = s + 1 := Nat.mod_eq_of_lt h

theorem down_of {s : Nat} (h : s + 1 < 2 ^ 32) : down (s + 1) = s := by
  unfold down
  omega

theorem wait_spec {t : Nat} {bs : List Code} {v lo hi : Nat} (hb : ∀ b ∈ bs, Spec (fun s => s = v) b v lo hi) :
    Spec (fun s => s = v) (.wait t bs) v lo hi := by
  intro st st' o hs h
  generalize hc : Code.wait t bs = c at h
  induction h with
  | stop _ _ => exact ⟨hs, by simp⟩
  | run e own h1 _ _ ih =>
    cases hc
    obtain ⟨e1, l1⟩ := hb _ (own rfl).2 _ _ _ (by exact hs) h1
    obtain ⟨e2, l2⟩ := ih e1 rfl
    refine ⟨e2, fun x hx => ?_⟩
    rcases List.mem_append.1 hx with hx | hx
    · exact l1 x hx
    · exact l2 x hx
  | _ => cases hc

theorem par_spec {bs : List Code} {v lo hi : Nat} (hb : ∀ b ∈ bs, Spec (fun s => s = v) b v lo hi) :
    Spec (fun s => s = v) (.par bs) v lo hi := by
  intro st st' o hs h
  cases h with
  | par h => exact wait_spec hb _ _ _ (by exact hs) h

theorem set_spec (n lo hi : Nat) (pre : Nat → Prop) : Spec pre (.set n) n lo hi := by
  intro st st' o _ h
  cases h
  exact ⟨rfl, by simp⟩

theorem inc_spec {v lo hi : Nat} (h : v + 1 < 2 ^ 32) : Spec (fun s => s = v) .inc (v + 1) lo hi := by
  intro st st' o hs h
  cases h
  refine ⟨?_, by simp⟩
  change up st.ind = v + 1
  rw [hs, up_of h]

theorem dec_spec {v lo hi : Nat} (h : v + 1 < 2 ^ 32) : Spec (fun s => s = v + 1) .dec v lo hi := by
  intro st st' o hs h
  cases h
  refine ⟨?_, by simp⟩
  change down st.ind = v
  rw [hs, down_of h]

theorem log_spec {v lo hi : Nat} (h1 : lo ≤ v) (h2 : v ≤ hi) : Spec (fun s => s = v) .log v lo hi := by
  intro st st' o hs h
  cases h
  refine ⟨hs, fun x hx => ?_⟩
  rw [List.mem_singleton] at hx
  rw [hx, hs]
  exact ⟨h1, h2⟩

theorem nil_spec (v lo hi : Nat) : Spec (fun s => s = v) (.seq []) v lo hi := by
  intro st st' o hs h
  cases h
  exact ⟨hs, by simp⟩

theorem cons_spec {pre : Nat → Prop} {c : Code} {cs : List Code} {v w lo hi : Nat} (h1 : Spec pre c v lo hi)
    (h2 : Spec (fun s => s = v) (.seq cs) w lo hi) : Spec pre (.seq (c :: cs)) w lo hi := by
  intro st st' o hs h
  cases h with
  | cons a b =>
    obtain ⟨e1, l1⟩ := h1 _ _ _ hs a
    obtain ⟨e2, l2⟩ := h2 _ _ _ e1 b
    refine ⟨e2, fun x hx => ?_⟩
    rcases List.mem_append.1 hx with hx | hx
    · exact l1 x hx
    · exact l2 x hx

theorem Spec.weaken {pre pre' : Nat → Prop} {c : Code} {v lo hi lo' hi' : Nat} (h : Spec pre c v lo hi)
    (hp : ∀ s, pre' s → pre s) (h1 : lo' ≤ lo) (h2 : hi ≤ hi') : Spec pre' c v lo' hi' := by
  intro st st' o hs hst
  obtain ⟨e, l⟩ := h _ _ _ (hp _ hs) hst
  exact ⟨e, fun x hx => ⟨Nat.le_trans h1 (l x hx).1, Nat.le_trans (l x hx).2 h2⟩⟩

theorem base_spec {l : Nat} (h : l + 2 < 2 ^ 32) (pre : Nat → Prop) : Spec pre (baseCode l) l l (l + 2) := by
  refine cons_spec (set_spec l _ _ _) (cons_spec (log_spec (Nat.le_refl _) (by omega)) ?_)
  refine cons_spec (inc_spec (by omega)) (cons_spec (inc_spec (by omega)) ?_)
  exact cons_spec (dec_spec (by omega)) (cons_spec (dec_spec (by omega)) (nil_spec _ _ _))

theorem edge_spec {l m : Nat} (h : l + 2 < 2 ^ 32) (pre : Nat → Prop) : Spec pre (edgeBody l m) l l (l + 2) := by
  refine cons_spec (set_spec l _ _ _) (cons_spec (inc_spec (by omega)) (cons_spec (log_spec (by omega) (by omega)) ?_))
  refine cons_spec (v := l + 1) ?_ (cons_spec (dec_spec (by omega)) (nil_spec _ _ _))
  refine cons_spec (inc_spec (by omega)) (cons_spec (par_spec ?_) (cons_spec (dec_spec (by omega)) (nil_spec _ _ _)))
  intro b hb
  rw [(List.mem_replicate.1 hb).2]
  exact log_spec (by omega) (by omega)

theorem neigh_spec {l k lo hi : Nat} (h : l + 2 < 2 ^ 32) (h1 : lo ≤ l + 1) (h2 : l + 1 ≤ hi) :
    Spec (fun s => s = l) (.neigh k) l lo hi := by
  intro st st' o hs hst
  cases hst with
  | neigh hst =>
    rw [hs, up_of (by omega)] at hst
    refine (cons_spec (lo := lo) (hi := hi) (inc_spec (v := l) (by omega)) (cons_spec (v := l) ?_ (nil_spec _ _ _)))
      _ _ _ hs hst
    refine cons_spec (par_spec ?_) (cons_spec (log_spec h1 h2) (cons_spec (dec_spec (by omega)) (nil_spec _ _ _)))
    intro b hb
    rw [(List.mem_replicate.1 hb).2]
    exact cons_spec (set_spec _ _ _ _) (cons_spec (inc_spec (by omega)) (cons_spec (dec_spec (by omega)) (nil_spec _ _ _)))

mutual
theorem tri_spec : ∀ (sh : Shape) (l : Nat) (pre : Nat → Prop), l + sh.height + 2 < 2 ^ 32 →
    Spec pre (tri sh l) l l (l + sh.height + 2)
  | .direct, l, pre, h => by
    simp only [tri, Shape.height] at h ⊢
    exact base_spec h pre
  | .base, l, pre, h => by
    simp only [tri, Shape.height] at h ⊢
    exact cons_spec (set_spec l _ _ _) (cons_spec (log_spec (by omega) (by omega))
      (cons_spec (base_spec h _) (nil_spec _ _ _)))
  | .node ps m e k, l, pre, h => by
    simp only [tri]
    have hh : (Shape.node ps m e k).height = max (heightL ps) e.height + 1 := by simp [Shape.height]
    rw [hh] at h ⊢
    have lg : ∀ {cs w}, Spec (fun s => s = l) (.seq cs) w l (l + (max (heightL ps) e.height + 1) + 2) →
        Spec (fun s => s = l) (.seq (.log :: cs)) w l (l + (max (heightL ps) e.height + 1) + 2) :=
      fun h => cons_spec (log_spec (by omega) (by omega)) h
    refine cons_spec (set_spec l _ _ _) (lg (lg (lg ?_)))
    refine cons_spec (inc_spec (by omega)) (cons_spec (dec_spec (by omega)) ?_)
    refine cons_spec (par_spec (v := l) fun b hb => ?_) (cons_spec (par_spec (v := l) fun b hb => ?_) (lg ?_))
    · exact (bodies_spec ps l (by omega) b hb).weaken (fun _ _ => trivial) (Nat.le_refl _) (by omega)
    · rw [(List.mem_replicate.1 hb).2]
      exact (edge_spec (by omega) (fun _ => True)).weaken (fun _ _ => trivial) (Nat.le_refl _) (by omega)
    · refine cons_spec (inc_spec (by omega)) (cons_spec (v := l + 1) ?_ (cons_spec (dec_spec (by omega)) (lg (lg (lg ?_)))))
      · exact (tri_spec e (l + 1) (fun _ => True) (by omega)).weaken (fun _ _ => trivial) (by omega) (by omega)
      · exact cons_spec (neigh_spec (by omega) (by omega) (by omega)) (nil_spec _ _ _)
theorem bodies_spec : ∀ (ps : List Shape) (l : Nat), l + heightL ps + 3 < 2 ^ 32 → ∀ b ∈ triBodies ps l,
    Spec (fun _ => True) b l l (l + heightL ps + 3)
  | [], _, _, b, hb => by simp [triBodies] at hb
  | p :: ps, l, h, b, hb => by
    simp only [heightL] at h ⊢
    simp only [triBodies, List.mem_cons] at hb
    rcases hb with rfl | hb
    · refine cons_spec (set_spec l _ _ _) (cons_spec (inc_spec (by omega)) (cons_spec (log_spec (by omega) (by omega)) ?_))
      refine cons_spec (v := l + 1) ?_ (cons_spec (dec_spec (by omega)) (nil_spec _ _ _))
      exact (tri_spec p (l + 1) (fun _ => True) (by omega)).weaken (fun _ _ => trivial) (by omega) (by omega)
    · exact (bodies_spec ps l (by omega) b hb).weaken (fun _ h => h) (Nat.le_refl _) (by omega)
end

/-- **C134 (part).** If waiting threads take only tasks of the loop they wait for, a call with a provenance of
length `l` logs with indentations from `l` to `l` plus the height of its recursion plus 2 and leaves indentation `l`,
whatever the thread did before and whichever tasks it takes. What is missing are threads that take tasks of other
loops, see `C134_steal_violated`. -/
theorem C134_isolated_partial (sh : Shape) (l : Nat) (h : l + sh.height + 2 < 2 ^ 32) (st st' : St) (out : List Nat)
    (run : Steps true (tri sh l) st st' out) :
    st'.ind = l ∧ ∀ x ∈ out, l ≤ x ∧ x ≤ l + sh.height + 2 :=
  tri_spec sh l (fun _ => True) h st st' out trivial run

/-- **C134 (part).** The tasks of the loops that log do so on every thread, whatever its indentation was: a task of a
call with a provenance of length `l` logs with indentations from `l` on and leaves indentation `l`. Again for
threads that only take tasks of the loop they wait for. -/
theorem C134_task_partial (ps : List Shape) (l m : Nat) (h : l + heightL ps + 3 < 2 ^ 32) (b : Code)
    (hb : b ∈ triBodies ps l ∨ b = edgeBody l m) (st st' : St) (out : List Nat) (run : Steps true b st st' out) :
    st'.ind = l ∧ ∀ x ∈ out, l ≤ x ∧ x ≤ l + heightL ps + 3 := by
  rcases hb with hb | rfl
  · exact bodies_spec ps l h b hb st st' out trivial run
  · exact ((edge_spec (m := m) (by omega) (fun _ => True)).weaken (fun _ h => h) (Nat.le_refl _) (by omega))
      st st' out trivial run

/-! ### Executions -/

theorem base_run (iso : Bool) (l : Nat) (st : St) (h : l + 2 < 2 ^ 32) :
    Steps iso (baseCode l) st { st with ind := l } [l] := by
  have r : Steps iso (baseCode l) st { st with ind := down (down (up (up l))) } [l] :=
    .cons (.set l st) (.cons (.log _) (.cons (.inc _) (.cons (.inc _) (.cons (.dec _) (.cons (.dec _) (.nil _))))))
  rwa [up_of (s := l) (by omega), up_of (by omega), down_of (by omega), down_of (by omega)] at r

theorem leaf_run (iso : Bool) (l : Nat) (st : St) (h : l + 2 < 2 ^ 32) :
    Steps iso (tri .base l) st { st with ind := l } [l, l] := by
  simp only [tri]
  exact .cons (.set l st) (.cons (.log _) (.cons (base_run iso l _ h) (.nil _)))

section
variable {iso : Bool} {cs : List Code} {i t : Nat} {p : List (Nat × Code)} {st' : St} {o : List Nat}

theorem seqSet (n : Nat) (h : Steps iso (.seq cs) ⟨n, p, t⟩ st' o) : Steps iso (.seq (.set n :: cs)) ⟨i, p, t⟩ st' o :=
  .cons (.set n _) h

theorem seqInc (hi : i + 1 < 2 ^ 32) (h : Steps iso (.seq cs) ⟨i + 1, p, t⟩ st' o) :
    Steps iso (.seq (.inc :: cs)) ⟨i, p, t⟩ st' o := by
  rw [← up_of hi] at h
  exact .cons (.inc _) h

theorem seqDec (hi : i + 1 < 2 ^ 32) (h : Steps iso (.seq cs) ⟨i, p, t⟩ st' o) :
    Steps iso (.seq (.dec :: cs)) ⟨i + 1, p, t⟩ st' o := by
  rw [← down_of hi] at h
  exact .cons (.dec _) h

/-- `decIndent` below zero. -/
theorem seqDec0 (h : Steps iso (.seq cs) ⟨4294967295, p, t⟩ st' o) : Steps iso (.seq (.dec :: cs)) ⟨0, p, t⟩ st' o := by
  have e : down 0 = 4294967295 := by decide
  rw [← e] at h
  exact .cons (.dec _) h

theorem seqInc0 (h : Steps iso (.seq cs) ⟨0, p, t⟩ st' o) : Steps iso (.seq (.inc :: cs)) ⟨4294967295, p, t⟩ st' o := by
  have e : up 4294967295 = 0 := by decide
  rw [← e] at h
  exact .cons (.inc _) h

theorem seqLog (h : Steps iso (.seq cs) ⟨i, p, t⟩ st' o) : Steps iso (.seq (.log :: cs)) ⟨i, p, t⟩ st' (i :: o) :=
  .cons (.log _) h

theorem seqBase (l : Nat) (hl : l + 2 < 2 ^ 32) (h : Steps iso (.seq cs) ⟨l, p, t⟩ st' o) :
    Steps iso (.seq (baseCode l :: cs)) ⟨i, p, t⟩ st' (l :: o) :=
  .cons (base_run iso l _ hl) h

theorem seqLeaf (l : Nat) (hl : l + 2 < 2 ^ 32) (h : Steps iso (.seq cs) ⟨l, p, t⟩ st' o) :
    Steps iso (.seq (.seq [.set l, .log, baseCode l] :: cs)) ⟨i, p, t⟩ st' (l :: l :: o) := by
  have := leaf_run iso l ⟨i, p, t⟩ hl
  simp only [tri] at this
  exact .cons this h

/-- A loop whose tasks are all taken by other threads. -/
theorem seqIdle (bs : List Code) (hp : ∀ e ∈ p, e.1 ≠ t) (h : Steps iso (.seq cs) ⟨i, p, t + 1⟩ st' o) :
    Steps iso (.seq (.par bs :: cs)) ⟨i, p, t⟩ st' o :=
  .cons (.par (.stop (List.sublist_append_right _ _) hp)) h

/-- `updateNeighbors`, with the simplices checked by other threads. -/
theorem seqNeigh (k : Nat) (hi : i + 1 < 2 ^ 32) (hp : ∀ e ∈ p, e.1 ≠ t)
    (h : Steps iso (.seq cs) ⟨i, p, t + 1⟩ st' o) :
    Steps iso (.seq (.neigh k :: cs)) ⟨i, p, t⟩ st' ((i + 1) :: o) := by
  have n : Steps iso (.neigh k) ⟨i, p, t⟩ ⟨i, p, t + 1⟩ [i + 1] := by
    refine .neigh ?_
    refine seqInc hi (.cons (o1 := [i + 1]) (o2 := []) ?_ (.nil _))
    exact seqIdle _ hp (seqLog (seqDec hi (.nil _)))
  exact .cons n h

theorem seqSub {cs' : List Code} {st1 : St} (o1 o2 : List Nat) (h1 : Steps iso (.seq cs') ⟨i, p, t⟩ st1 o1)
    (h2 : Steps iso (.seq cs) st1 st' o2) : Steps iso (.seq (.seq cs' :: cs)) ⟨i, p, t⟩ st' (o1 ++ o2) :=
  .cons h1 h2

end

/-- Two parts. -/
def two : Shape := .node [.base, .base] 1 .direct 0

theorem two_run (iso : Bool) : Steps iso (tri two 1) ⟨0, [], 0⟩ ⟨1, [], 3⟩ [1, 1, 1, 1, 2, 1, 1, 1, 2] := by
  simp only [tri, two]
  refine seqSet 1 (seqLog (seqLog (seqLog (seqInc (by decide) (seqDec (by decide) ?_)))))
  refine seqIdle _ (by simp) (seqIdle _ (by simp) (seqLog (seqInc (by decide) (seqBase 2 (by decide) ?_))))
  exact seqDec (by decide) (seqLog (seqLog (seqLog (seqNeigh 0 (by decide) (by simp) (.nil _)))))

/-- The hypotheses of C134 are met by an execution of a division in two parts. -/
example : ∀ x ∈ [1, 1, 1, 1, 2, 1, 1, 1, 2], 1 ≤ x ∧ x ≤ 1 + two.height + 2 :=
  (C134_isolated_partial two 1 (by simp [two, Shape.height, heightL]) _ _ _ (two_run true)).2

/-- A task on a thread with a large indentation. -/
example : Steps true (.seq [.set 1, .inc, .log, tri .base 2, .dec]) ⟨77, [], 0⟩ ⟨1, [], 0⟩ [2, 2, 2] ∧
    (.seq [.set 1, .inc, .log, tri .base 2, .dec] : Code) ∈ triBodies [.base, .base] 1 := by
  constructor
  · simp only [tri]
    exact seqSet 1 (seqInc (by decide) (seqLog (seqLeaf 2 (by decide) (seqDec (by decide) (.nil _)))))
  · simp [triBodies]

/-- Two parts, the first of which is divided again. -/
def deep : Shape := .node [two, .base] 1 .direct 0

/-- The second task of the outer loop. -/
def taskB : Code := .seq [.set 1, .inc, .log, .seq [.set 2, .log, baseCode 2], .dec]

theorem taskB_run (st : St) : Steps false taskB st { st with ind := 1 } [2, 2, 2] :=
  seqSet 1 (seqInc (by decide) (seqLog (seqLeaf 2 (by decide) (seqDec (by decide) (.nil _)))))

/-- The edge extraction of the first part. While the thread waits for the simplices it takes the second task of the
outer loop, which leaves indentation 1; the two `DEDENT` lead below zero. -/
theorem steal_run : Steps false (edgeBody 2 1) ⟨2, [(2, edgeBody 2 1), (0, taskB)], 3⟩
    ⟨4294967295, [(2, edgeBody 2 1)], 4⟩ [3, 2, 2, 2] := by
  refine seqSet 2 (seqInc (by decide) (seqLog ?_))
  refine seqSub [2, 2, 2] [] (st1 := ⟨0, [(2, edgeBody 2 1)], 4⟩) ?_ (seqDec0 (.nil _))
  refine seqInc (by decide) (.cons (o1 := [2, 2, 2]) (o2 := []) (st1 := ⟨1, [(2, edgeBody 2 1)], 4⟩) ?_
    (seqDec (by decide) (.nil _)))
  refine .par (.run (o1 := [2, 2, 2]) (o2 := []) (e := (0, taskB)) (a := [(3, .log), (2, edgeBody 2 1)]) (b := [])
    rfl (by simp) (taskB_run _) ?_)
  exact .stop (List.sublist_cons_self _ _) (by simp)

/-- The first task of the outer loop. -/
theorem taskA_run : Steps false (.seq [.set 1, .inc, .log, tri two 2, .dec]) ⟨1, [(0, taskB)], 1⟩ ⟨1, [], 5⟩
    [2, 2, 2, 2, 3, 2, 2, 2, 4294967295, 3, 2, 2, 2, 3] := by
  refine seqSet 1 (seqInc (by decide) (seqLog ?_))
  simp only [tri, two]
  refine seqSub [2, 2, 2, 3, 2, 2, 2, 4294967295, 3, 2, 2, 2, 3] [] (st1 := ⟨2, [], 5⟩) ?_ (seqDec (by decide) (.nil _))
  refine seqSet 2 (seqLog (seqLog (seqLog (seqInc (by decide) (seqDec (by decide) ?_)))))
  refine seqIdle _ (by simp) ?_
  refine .cons (o1 := [3, 2, 2, 2]) (o2 := [4294967295, 3, 2, 2, 2, 3]) (st1 := ⟨4294967295, [], 4⟩) ?_ ?_
  · refine .par (.run (o1 := [3, 2, 2, 2]) (o2 := []) (e := (2, edgeBody 2 1)) (a := [])
      (b := [(2, edgeBody 2 1), (0, taskB)]) rfl (by simp) steal_run ?_)
    exact .stop (List.sublist_cons_self _ _) (by simp)
  · refine seqLog (seqInc0 (seqBase 3 (by decide) (seqDec (by decide) ?_)))
    exact seqLog (seqLog (seqLog (seqNeigh 0 (by decide) (by simp) (.nil _))))

/-- **C134, violated.** A thread that waits for an inner loop may take a task of an outer loop. That task leaves the
smaller indentation of the outer loop, the calls of `decIndent` lead below zero, and the next line is logged with
4294967295 tabs. -/
theorem C134_steal_violated : ∃ st' out, Steps false (tri deep 1) ⟨0, [], 0⟩ st' out ∧ 4294967295 ∈ out := by
  refine ⟨⟨1, [], 7⟩, [1, 1, 1, 2, 2, 2, 2, 3, 2, 2, 2, 4294967295, 3, 2, 2, 2, 3, 1, 2, 1, 1, 1, 2], ?_, by simp⟩
  unfold deep
  rw [tri]
  refine seqSet 1 (seqLog (seqLog (seqLog (seqInc (by decide) (seqDec (by decide) ?_)))))
  refine .cons (o1 := [2, 2, 2, 2, 3, 2, 2, 2, 4294967295, 3, 2, 2, 2, 3]) (o2 := [1, 2, 1, 1, 1, 2])
    (st1 := ⟨1, [], 5⟩) ?_ ?_
  · refine .par (.run (o1 := [2, 2, 2, 2, 3, 2, 2, 2, 4294967295, 3, 2, 2, 2, 3]) (o2 := [])
      (e := (0, .seq [.set 1, .inc, .log, tri two 2, .dec])) (a := []) (b := [(0, taskB)]) ?_ (by simp) taskA_run ?_)
    · simp [triBodies, taskB, tri]
    · exact .stop (List.Sublist.refl _) (by simp)
  · refine seqIdle _ (by simp) (seqLog (seqInc (by decide) ?_))
    simp only [tri]
    refine seqBase 2 (by decide) (seqDec (by decide) ?_)
    exact seqLog (seqLog (seqLog (seqNeigh 0 (by decide) (by simp) (.nil _))))

end Indent
end Verif
