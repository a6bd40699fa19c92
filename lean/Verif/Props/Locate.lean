import Verif.Model.Locate
import Verif.Props.GeomCore
import Mathlib.Order.Interval.Finset.Nat
import Mathlib.Logic.Relation

/-!
# C73: point location
-/
namespace Verif
namespace Locate
variable {D : Nat} {K : Type} [LinearOrder K]

/-- The simplex `b` is a neighbour of the simplex `a`. -/
def Adj (c : Scene D K) (a b : Nat) : Prop := ∃ sl, c.slot a = some sl ∧ ∃ d, sl.nbrs d = some b

/-- The simplex `b` can be reached from `a` by going from neighbour to neighbour. -/
def Reach (c : Scene D K) (a b : Nat) : Prop := Relation.ReflTransGen (Adj c) a b

/-- Number of simplices without mark. -/
def unmarked (c : Scene D K) (s : State K) : Nat := ((Finset.Icc c.lo c.hi).filter fun n => s.marks n = false).card

/-- Decreases in every round. -/
def measure (c : Scene D K) (s : State K) : Nat := 2 * unmarked c s + s.queue.length

/-- Effect of the loop over the neighbours `l`. -/
structure Enq (c : Scene D K) (sl : Slot D) (l : List (Fin (D + 1))) (s s' : State K) : Prop where
  minD : s'.minD = s.minD
  minId : s'.minId = s.minId
  marks : ∀ n, s'.marks n = true ↔ s.marks n = true ∨ ∃ d ∈ l, sl.nbrs d = some n
  queue : ∀ y ∈ s'.queue, y ∈ s.queue ∨ ∃ d ∈ l, sl.nbrs d = some y.2
  keep : ∀ y ∈ s.queue, y ∈ s'.queue
  new : ∀ n, s'.marks n = true → s.marks n = true ∨ ∃ y ∈ s'.queue, y.2 = n
  measure : measure c s' ≤ measure c s

theorem Enq.refl (c : Scene D K) (sl : Slot D) (s : State K) : Enq c sl [] s s :=
  ⟨rfl, rfl, by simp, fun y h => .inl h, fun y h => h, fun n h => .inl h, le_refl _⟩

theorem enqueue_spec (c : Scene D K) (sl : Slot D) (s s' : State K) (d : Fin (D + 1)) (h : enqueue c sl (some s) d = some s') :
    Enq c sl [d] s s' := by
  simp only [enqueue, Option.bind_some] at h
  split at h
  · next hn =>
    cases h
    exact ⟨rfl, rfl, by simp [hn], fun y h => .inl h, fun y h => h, fun n h => .inl h, le_refl _⟩
  · next n hn =>
    split_ifs at h with hr hm
    · cases h
      refine ⟨rfl, rfl, ?_, fun y h => .inl h, fun y h => h, fun n h => .inl h, le_refl _⟩
      intro k
      simp only [List.mem_singleton, exists_eq_left, hn, Option.some.injEq]
      constructor
      · exact .inl
      · rintro (h | rfl)
        · exact h
        · exact hm
    · cases h
      refine ⟨rfl, rfl, ?_, ?_, fun y h => List.mem_cons_of_mem _ h, ?_, ?_⟩
      · intro k
        simp only [List.mem_singleton, exists_eq_left, hn, Option.some.injEq, Function.update_apply]
        by_cases hk : k = n
        · simp [hk]
        · simp [hk, Ne.symm hk]
      · intro y hy
        rcases List.mem_cons.mp hy with rfl | hy
        · exact .inr ⟨d, by simp, hn⟩
        · exact .inl hy
      · intro k hk
        by_cases hkn : k = n
        · exact .inr ⟨_, List.mem_cons_self, hkn.symm⟩
        · simp only [Function.update_apply, if_neg hkn] at hk
          exact .inl hk
      · simp only [Locate.measure, List.length_cons]
        have hlt : unmarked c { s with marks := Function.update s.marks n true, queue := (c.dist sl.verts d, n) :: s.queue } <
            unmarked c s := by
          apply Finset.card_lt_card
          rw [Finset.ssubset_iff_of_subset]
          · refine ⟨n, ?_, ?_⟩
            · simp only [Finset.mem_filter, Finset.mem_Icc]
              exact ⟨hr, by simpa using hm⟩
            · simp
          · intro k hk
            simp only [Finset.mem_filter, Function.update_apply] at hk ⊢
            refine ⟨hk.1, ?_⟩
            by_cases hkn : k = n
            · simp [hkn] at hk
            · simpa [hkn] using hk.2
        omega

theorem enqueue_none_iff (c : Scene D K) (sl : Slot D) (s : State K) (d : Fin (D + 1)) :
    enqueue c sl (some s) d = none ↔ ∃ n, sl.nbrs d = some n ∧ ¬ (c.lo ≤ n ∧ n ≤ c.hi) := by
  simp only [enqueue, Option.bind_some]
  split
  · next h => simp [h]
  · next n h =>
    rw [h]
    split_ifs with h1 h2 <;> simp [h1]
    all_goals intro hc; omega

theorem enqueue_fold (c : Scene D K) (sl : Slot D) : ∀ (l : List (Fin (D + 1))) (s s' : State K),
    l.foldl (enqueue c sl) (some s) = some s' → Enq c sl l s s' := by
  have hnone : ∀ l : List (Fin (D + 1)), l.foldl (enqueue c sl) none = none := by
    intro l
    induction l with
    | nil => rfl
    | cons d l ih => rw [List.foldl_cons]; exact ih
  intro l
  induction l with
  | nil => intro s s' h; cases h; exact Enq.refl c sl s
  | cons d l ih =>
    intro s s' h
    rw [List.foldl_cons] at h
    cases ht : enqueue c sl (some s) d with
    | none => rw [ht, hnone] at h; simp at h
    | some t =>
      rw [ht] at h
      have h1 := enqueue_spec c sl s t d ht
      have h2 := ih t s' h
      refine ⟨h2.minD.trans h1.minD, h2.minId.trans h1.minId, ?_, ?_, fun y hy => h2.keep y (h1.keep y hy), ?_, h2.measure.trans h1.measure⟩
      · intro n
        rw [h2.marks, h1.marks]
        simp only [List.mem_singleton, exists_eq_left, List.mem_cons, exists_eq_or_imp, or_assoc, List.not_mem_nil, false_and,
          exists_const, false_or]
      · intro y hy
        rcases h2.queue y hy with h | ⟨e, he, h⟩
        · rcases h1.queue y h with h | ⟨e, he, h⟩
          · exact .inl h
          · exact .inr ⟨e, by simp at he; simp [he], h⟩
        · exact .inr ⟨e, List.mem_cons_of_mem _ he, h⟩
      · intro n hn
        rcases h2.new n hn with h | h
        · rcases h1.new n h with h | ⟨y, hy, h⟩
          · exact .inl h
          · exact .inr ⟨y, h2.keep y hy, h⟩
        · exact .inr h

theorem enqueue_fold_some (c : Scene D K) (sl : Slot D) (hn : ∀ d n, sl.nbrs d = some n → c.lo ≤ n ∧ n ≤ c.hi) :
    ∀ (l : List (Fin (D + 1))) (s : State K), ∃ s', l.foldl (enqueue c sl) (some s) = some s' := by
  intro l
  induction l with
  | nil => intro s; exact ⟨s, rfl⟩
  | cons d l ih =>
    intro s
    rw [List.foldl_cons]
    cases ht : enqueue c sl (some s) d with
    | none =>
      obtain ⟨n, h1, h2⟩ := (enqueue_none_iff c sl s d).mp ht
      exact absurd (hn d n h1) h2
    | some t => exact ih t

/-- What a round that does not end the search does. -/
theorem visit_running {c : Scene D K} {s s' : State K} {x : K × Nat} (h : visit c s x = .running s') :
    ∃ sl, c.slot x.2 = some sl ∧ c.inS sl.verts = false ∧ ∃ t : State K, t.queue = s.queue ∧ t.marks = s.marks ∧
      (t.minId = s.minId ∨ t.minId = sl.id) ∧ Enq c sl (List.finRange (D + 1)) t s' := by
  unfold visit at h
  split at h
  · simp at h
  · next sl hsl =>
    split_ifs at h with hin hlt
    all_goals
      dsimp only at h
      split at h
      · simp at h
      · next t ht =>
        cases h
        refine ⟨sl, hsl, by simpa using hin, _, ?_, ?_, ?_, enqueue_fold c sl _ _ _ ht⟩ <;> simp

theorem step_measure {c : Scene D K} {s s' : State K} (h : Step c s (.running s')) : measure c s' < measure c s := by
  generalize ho : Out.running s' = o at h
  cases h with
  | empty _ => cases ho
  | pop x hx _ =>
    obtain ⟨sl, _, _, t, hq, hm, _, he⟩ := visit_running ho.symm
    have h1 := he.measure
    have h2 : measure c t < measure c s := by
      have : unmarked c t = unmarked c s := by simp only [unmarked, hm]
      simp only [Locate.measure, this, hq]
      have := List.length_erase_of_mem hx
      have := List.length_pos_of_mem hx
      omega
    omega

/-- **C73 (termination).** The search ends, whatever the order of the simplices with the same distance is. -/
theorem C73_ends (c : Scene D K) (f : Nat → State K) : ¬ ∀ k, Step c (f k) (.running (f (k + 1))) := by
  intro h
  have : ∀ k, measure c (f k) + k ≤ measure c (f 0) := by
    intro k
    induction k with
    | zero => simp
    | succ k ih => have := step_measure (h k); omega
  have := this (measure c (f 0) + 1)
  omega

theorem exists_min (l : List (K × Nat)) (h : l ≠ []) : ∃ x ∈ l, ∀ y ∈ l, x.1 ≤ y.1 := by
  induction l with
  | nil => exact absurd rfl h
  | cons a l ih =>
    by_cases hl : l = []
    · subst hl; exact ⟨a, by simp, by simp⟩
    · obtain ⟨x, hx, hm⟩ := ih hl
      rcases le_total a.1 x.1 with hle | hle
      · refine ⟨a, by simp, fun y hy => ?_⟩
        rcases List.mem_cons.mp hy with rfl | hy
        · exact le_refl _
        · exact hle.trans (hm y hy)
      · refine ⟨x, List.mem_cons_of_mem _ hx, fun y hy => ?_⟩
        rcases List.mem_cons.mp hy with rfl | hy
        · exact hle
        · exact hm y hy

/-- **C73 (outcome).** Every search has an outcome. -/
theorem C73_outcome (c : Scene D K) (hint : Option Nat) : ∃ o, Find c hint o := by
  have key : ∀ m s, measure c s ≤ m → ∃ o, Ends c s o := by
    intro m
    induction m with
    | zero =>
      intro s hs
      have : s.queue = [] := List.length_eq_zero_iff.mp (by simp only [Locate.measure] at hs; omega)
      exact ⟨_, .returned s _ (.empty s this)⟩
    | succ m ih =>
      intro s hs
      by_cases hq : s.queue = []
      · exact ⟨_, .returned s _ (.empty s hq)⟩
      · obtain ⟨x, hx, hm⟩ := exists_min s.queue hq
        have hstep := Step.pop (c := c) s x hx hm
        cases ho : visit c { s with queue := s.queue.erase x } x with
        | running s' =>
          rw [ho] at hstep
          obtain ⟨o, h⟩ := ih s' (by have := step_measure hstep; omega)
          exact ⟨o, .more s s' o hstep h⟩
        | returned r => rw [ho] at hstep; exact ⟨_, .returned s r hstep⟩
        | ub => rw [ho] at hstep; exact ⟨_, .ub s hstep⟩
  unfold Find
  split
  · exact ⟨_, rfl⟩
  · next s _ => exact key _ s (le_refl _)

/-- Holds throughout the search from the simplex `h`. -/
structure Inv (c : Scene D K) (h : Nat) (s : State K) : Prop where
  start : s.marks h = true
  queued : ∀ y ∈ s.queue, Reach c h y.2 ∧ s.marks y.2 = true
  reach : ∀ n, s.marks n = true → Reach c h n
  closed : ∀ n, s.marks n = true → (∃ y ∈ s.queue, y.2 = n) ∨
    ∃ sl, c.slot n = some sl ∧ c.inS sl.verts = false ∧ ∀ d m, sl.nbrs d = some m → s.marks m = true
  minId : s.minId = none ∨ ∃ n sl, Reach c h n ∧ c.slot n = some sl ∧ s.minId = sl.id

theorem inv_start {c : Scene D K} {hint : Option Nat} {s : State K} (hs : start c hint = some s) : Inv c (hint.getD c.lo) s := by
  unfold start at hs
  dsimp only at hs
  split_ifs at hs
  cases hs
  refine ⟨by simp, ?_, ?_, ?_, .inl rfl⟩
  · intro y hy
    rw [List.mem_singleton] at hy
    subst hy
    exact ⟨.refl, by simp⟩
  · intro n hn
    by_cases hne : n = hint.getD c.lo
    · rw [hne]; exact .refl
    · simp [Function.update_apply, hne] at hn
  · intro n hn
    by_cases hne : n = hint.getD c.lo
    · exact .inl ⟨_, List.mem_singleton.mpr rfl, hne.symm⟩
    · simp [Function.update_apply, hne] at hn

theorem inv_step {c : Scene D K} {h : Nat} {s s' : State K} (hi : Inv c h s) (hs : Step c s (.running s')) : Inv c h s' := by
  generalize ho : Out.running s' = o at hs
  cases hs with
  | empty _ => cases ho
  | pop x hx _ =>
    obtain ⟨sl, hsl, hin, t, hq, hm, hid, he⟩ := visit_running ho.symm
    dsimp only at hq hm hid
    have hxr := (hi.queued x hx).1
    have hmono : ∀ n, s.marks n = true → s'.marks n = true := fun n hn => (he.marks n).mpr (.inl (by rw [hm]; exact hn))
    have hnb : ∀ d n, sl.nbrs d = some n → s'.marks n = true :=
      fun d n hd => (he.marks n).mpr (.inr ⟨d, List.mem_finRange d, hd⟩)
    have hnr : ∀ d n, sl.nbrs d = some n → Reach c h n := fun d n hd => hxr.tail ⟨sl, hsl, d, hd⟩
    have hreach : ∀ n, s'.marks n = true → Reach c h n := by
      intro n hn
      rcases (he.marks n).mp hn with h | ⟨d, _, hd⟩
      · rw [hm] at h; exact hi.reach n h
      · exact hnr d n hd
    refine ⟨hmono _ hi.start, ?_, hreach, ?_, ?_⟩
    · intro y hy
      rcases he.queue y hy with h | ⟨d, _, hd⟩
      · rw [hq] at h
        obtain ⟨h1, h2⟩ := hi.queued y (List.mem_of_mem_erase h)
        exact ⟨h1, hmono _ h2⟩
      · exact ⟨hnr d _ hd, hnb d _ hd⟩
    · intro n hn
      by_cases hnx : n = x.2
      · subst hnx
        exact .inr ⟨sl, hsl, hin, hnb⟩
      · rcases he.new n hn with h | h
        · rw [hm] at h
          rcases hi.closed n h with ⟨y, hy, rfl⟩ | ⟨sl', h1, h2, h3⟩
          · refine .inl ⟨y, he.keep y ?_, rfl⟩
            rw [hq]
            exact (List.mem_erase_of_ne (by rintro rfl; exact hnx rfl)).mpr hy
          · exact .inr ⟨sl', h1, h2, fun d m hd => hmono _ (h3 d m hd)⟩
        · exact .inl h
    · rw [he.minId]
      rcases hid with h | h
      · rw [h]; exact hi.minId
      · exact .inr ⟨x.2, sl, hxr, hsl, h⟩

/-- **C73.** If the point is in a simplex that can be reached from the start simplex and the search does not run into
undefined behaviour, then it returns the id of such a simplex. -/
theorem C73_partial (c : Scene D K) (hint : Option Nat) (o : Out K) (hf : Find c hint o) (ho : o ≠ .ub)
    (hex : ∃ a sl, Reach c (hint.getD c.lo) a ∧ c.slot a = some sl ∧ c.inS sl.verts = true) :
    ∃ a sl, Reach c (hint.getD c.lo) a ∧ c.slot a = some sl ∧ c.inS sl.verts = true ∧ o = .returned sl.id := by
  unfold Find at hf
  split at hf
  · exact absurd hf ho
  · next s hs =>
    have hi := inv_start hs
    clear hs
    induction hf with
    | returned s r hr =>
      generalize hq : Out.returned r = q at hr
      cases hr with
      | empty he =>
        exfalso
        have hall : ∀ n, Reach c (hint.getD c.lo) n → s.marks n = true := by
          intro n hn
          induction hn with
          | refl => exact hi.start
          | tail _ hab ih =>
            obtain ⟨sl, hsl, d, hd⟩ := hab
            rcases hi.closed _ ih with ⟨y, hy, _⟩ | ⟨sl', h1, _, h3⟩
            · rw [he] at hy; simp at hy
            · rw [h1] at hsl; cases hsl
              exact h3 d _ hd
        obtain ⟨a, sl, ha, hsl, hin⟩ := hex
        rcases hi.closed a (hall a ha) with ⟨y, hy, _⟩ | ⟨sl', h1, h2, _⟩
        · rw [he] at hy; simp at hy
        · rw [h1] at hsl; cases hsl
          rw [h2] at hin; simp at hin
      | pop x hx _ =>
        unfold visit at hq
        split at hq
        · simp at hq
        · next sl hsl =>
          split_ifs at hq with hin
          · exact ⟨x.2, sl, (hi.queued x hx).1, hsl, hin, by simp [visit, hsl, hin]⟩
          all_goals
            dsimp only at hq
            split at hq <;> simp at hq
    | ub s _ => exact absurd rfl ho
    | more s s' o hstep _ ih => exact ih ho (inv_step hi hstep)

/-- **C73 (definedness).** The search is defined if the start simplex and all neighbours of reachable simplices exist and
have ids between the bounds. -/
theorem C73_defined (c : Scene D K) (hint : Option Nat) (o : Out K) (hf : Find c hint o)
    (hr : ∀ a, Reach c (hint.getD c.lo) a → (c.slot a).isSome ∧ c.lo ≤ a ∧ a ≤ c.hi) : o ≠ .ub := by
  unfold Find at hf
  split at hf
  · next hs =>
    unfold start at hs
    dsimp only at hs
    rw [if_pos (hr _ .refl).2] at hs
    simp at hs
  · next s hs =>
    have hi := inv_start hs
    clear hs
    induction hf with
    | returned s r _ => simp
    | ub s hstep =>
      exfalso
      generalize hq : Out.ub = q at hstep
      cases hstep with
      | empty _ => cases hq
      | pop x hx _ =>
        have hxr := (hi.queued x hx).1
        obtain ⟨sl, hsl⟩ := Option.isSome_iff_exists.mp (hr _ hxr).1
        unfold visit at hq
        rw [hsl] at hq
        dsimp only at hq
        split_ifs at hq
        all_goals
          obtain ⟨t, ht⟩ := enqueue_fold_some c sl (fun d n hd => (hr n (hxr.tail ⟨sl, hsl, d, hd⟩)).2) (List.finRange (D + 1)) _
          rw [ht] at hq
          simp at hq
    | more s s' o hstep _ ih => exact ih (inv_step hi hstep)

/-- **C73 (valid arrays).** If moreover reachable slots hold their id, the result is the id of a simplex that contains the
point. -/
theorem C73_valid (c : Scene D K) (hint : Option Nat) (o : Out K) (hf : Find c hint o)
    (hr : ∀ a, Reach c (hint.getD c.lo) a → (∃ sl, c.slot a = some sl ∧ sl.id = some a) ∧ c.lo ≤ a ∧ a ≤ c.hi)
    (hex : ∃ a sl, Reach c (hint.getD c.lo) a ∧ c.slot a = some sl ∧ c.inS sl.verts = true) :
    ∃ a sl, c.slot a = some sl ∧ c.inS sl.verts = true ∧ o = .returned (some a) := by
  have ho := C73_defined c hint o hf fun a ha => ⟨by obtain ⟨⟨sl, h, _⟩, _⟩ := hr a ha; rw [h]; rfl, (hr a ha).2⟩
  obtain ⟨a, sl, ha, hsl, hin, rfl⟩ := C73_partial c hint o hf ho hex
  obtain ⟨⟨sl', h1, h2⟩, _⟩ := hr a ha
  rw [hsl] at h1
  cases h1
  exact ⟨a, sl, hsl, hin, by rw [h2]⟩

/-! ### With the geometric predicates -/

section
variable [Field K] [IsStrictOrderedRing K]

/-- Triangles of points `pts` and the searched point `p`. -/
def scene2 (slot : Nat → Option (Slot 2)) (lo hi : Nat) (top : K) (pts : Nat → Vec 2 K) (p : Vec 2 K) : Scene 2 K where
  slot := slot
  lo := lo
  hi := hi
  top := top
  inS := fun v => Geom.inSimplex2 p (pts (v 0)) (pts (v 1)) (pts (v 2))
  dist := fun v d => Geom.sqDistanceToFace2 p (pts (v (d + 1))) (pts (v (d + 2)))

/-- Tetrahedra of points `pts` and the searched point `p`. -/
def scene3 (slot : Nat → Option (Slot 3)) (lo hi : Nat) (top : K) (pts : Nat → Vec 3 K) (p : Vec 3 K) : Scene 3 K where
  slot := slot
  lo := lo
  hi := hi
  top := top
  inS := fun v => Geom.inSimplex3 p (pts (v 0)) (pts (v 1)) (pts (v 2)) (pts (v 3))
  dist := fun v d => Geom.sqDistanceToFace3 p (pts (v (d + 1))) (pts (v (d + 2))) (pts (v (d + 3)))

/-- **C73 (plane).** If the point is in a reachable triangle, the search returns a triangle that contains it. -/
theorem C73_plane (slot : Nat → Option (Slot 2)) (lo hi : Nat) (top : K) (pts : Nat → Vec 2 K) (p : Vec 2 K) (hint : Option Nat)
    (o : Out K) (hf : Find (scene2 slot lo hi top pts p) hint o)
    (hr : ∀ a, Reach (scene2 slot lo hi top pts p) (hint.getD lo) a →
      (∃ sl, slot a = some sl ∧ sl.id = some a ∧ Geom.NonDeg2 (pts (sl.verts 0)) (pts (sl.verts 1)) (pts (sl.verts 2))) ∧ lo ≤ a ∧ a ≤ hi)
    (hex : ∃ a sl, Reach (scene2 slot lo hi top pts p) (hint.getD lo) a ∧ slot a = some sl ∧
      ∃ w : Fin 3 → K, (∀ i, 0 ≤ w i) ∧ w 0 + w 1 + w 2 = 1 ∧
        ∀ i, p i = w 0 * pts (sl.verts 0) i + w 1 * pts (sl.verts 1) i + w 2 * pts (sl.verts 2) i) :
    ∃ a sl, slot a = some sl ∧ o = .returned (some a) ∧ ∃ w : Fin 3 → K, (∀ i, 0 ≤ w i) ∧ w 0 + w 1 + w 2 = 1 ∧
      ∀ i, p i = w 0 * pts (sl.verts 0) i + w 1 * pts (sl.verts 1) i + w 2 * pts (sl.verts 2) i := by
  obtain ⟨a, sl, ha, hsl, w, h0, h1, h2⟩ := hex
  have hnd : ∀ b sl, Reach (scene2 slot lo hi top pts p) (hint.getD lo) b → slot b = some sl →
      Geom.NonDeg2 (pts (sl.verts 0)) (pts (sl.verts 1)) (pts (sl.verts 2)) := by
    intro b sl hb hsl
    obtain ⟨⟨sl', e1, _, e3⟩, _⟩ := hr b hb
    rw [hsl] at e1; cases e1
    exact e3
  have hok := C73_partial (scene2 slot lo hi top pts p) hint o hf
    (C73_defined _ hint o hf fun b hb => ⟨by obtain ⟨⟨sl, h, _⟩, _⟩ := hr b hb; show (slot b).isSome; rw [h]; rfl, (hr b hb).2⟩)
    ⟨a, sl, ha, hsl, (Geom.C39_inSimplex2 p _ _ _ (hnd a sl ha hsl)).mpr ⟨w 0, w 1, w 2, h0 0, h0 1, h0 2, h1, h2⟩⟩
  obtain ⟨b, sl', hb, hsl', hin, rfl⟩ := hok
  obtain ⟨x, y, z, hx, hy, hz, hs, hp⟩ := (Geom.C39_inSimplex2 p _ _ _ (hnd b sl' hb hsl')).mp hin
  obtain ⟨⟨sl'', e1, e2, _⟩, _⟩ := hr b hb
  rw [show slot b = some sl' from hsl'] at e1; cases e1
  refine ⟨b, sl', hsl', by rw [e2], ![x, y, z], ?_, ?_, ?_⟩
  · intro i; fin_cases i <;> simpa
  · simpa using hs
  · simpa using hp

/-- **C73 (space).** If the point is in a reachable tetrahedron, the search returns a tetrahedron that contains it. -/
theorem C73_space (slot : Nat → Option (Slot 3)) (lo hi : Nat) (top : K) (pts : Nat → Vec 3 K) (p : Vec 3 K) (hint : Option Nat)
    (o : Out K) (hf : Find (scene3 slot lo hi top pts p) hint o)
    (hr : ∀ a, Reach (scene3 slot lo hi top pts p) (hint.getD lo) a →
      (∃ sl, slot a = some sl ∧ sl.id = some a ∧
        Geom.NonDeg3 (pts (sl.verts 0)) (pts (sl.verts 1)) (pts (sl.verts 2)) (pts (sl.verts 3))) ∧ lo ≤ a ∧ a ≤ hi)
    (hex : ∃ a sl, Reach (scene3 slot lo hi top pts p) (hint.getD lo) a ∧ slot a = some sl ∧
      ∃ w : Fin 4 → K, (∀ i, 0 ≤ w i) ∧ w 0 + w 1 + w 2 + w 3 = 1 ∧
        ∀ i, p i = w 0 * pts (sl.verts 0) i + w 1 * pts (sl.verts 1) i + w 2 * pts (sl.verts 2) i + w 3 * pts (sl.verts 3) i) :
    ∃ a sl, slot a = some sl ∧ o = .returned (some a) ∧ ∃ w : Fin 4 → K, (∀ i, 0 ≤ w i) ∧ w 0 + w 1 + w 2 + w 3 = 1 ∧
      ∀ i, p i = w 0 * pts (sl.verts 0) i + w 1 * pts (sl.verts 1) i + w 2 * pts (sl.verts 2) i + w 3 * pts (sl.verts 3) i := by
  obtain ⟨a, sl, ha, hsl, w, h0, h1, h2⟩ := hex
  have hnd : ∀ b sl, Reach (scene3 slot lo hi top pts p) (hint.getD lo) b → slot b = some sl →
      Geom.NonDeg3 (pts (sl.verts 0)) (pts (sl.verts 1)) (pts (sl.verts 2)) (pts (sl.verts 3)) := by
    intro b sl hb hsl
    obtain ⟨⟨sl', e1, _, e3⟩, _⟩ := hr b hb
    rw [hsl] at e1; cases e1
    exact e3
  have hok := C73_partial (scene3 slot lo hi top pts p) hint o hf
    (C73_defined _ hint o hf fun b hb => ⟨by obtain ⟨⟨sl, h, _⟩, _⟩ := hr b hb; show (slot b).isSome; rw [h]; rfl, (hr b hb).2⟩)
    ⟨a, sl, ha, hsl, (Geom.C39_inSimplex3 p _ _ _ _ (hnd a sl ha hsl)).mpr
      ⟨w 0, w 1, w 2, w 3, h0 0, h0 1, h0 2, h0 3, h1, h2⟩⟩
  obtain ⟨b, sl', hb, hsl', hin, rfl⟩ := hok
  obtain ⟨x, y, z, t, hx, hy, hz, ht, hs, hp⟩ := (Geom.C39_inSimplex3 p _ _ _ _ (hnd b sl' hb hsl')).mp hin
  obtain ⟨⟨sl'', e1, e2, _⟩, _⟩ := hr b hb
  rw [show slot b = some sl' from hsl'] at e1; cases e1
  refine ⟨b, sl', hsl', by rw [e2], ![x, y, z, t], ?_, ?_, ?_⟩
  · intro i; fin_cases i <;> simpa
  · simpa using hs
  · simpa using hp

end

/-! ### Violations -/

/-- If the slot at the lower bound was removed from the triangulation and its remains contain the point, the search from there
returns the invalid id. -/
theorem stale_start (c : Scene D K) (sl : Slot D) (hlo : c.lo ≤ c.hi) (hsl : c.slot c.lo = some sl) (hid : sl.id = none)
    (hin : c.inS sl.verts = true) (o : Out K) (hf : Find c none o) : o = .returned none := by
  unfold Find start at hf
  simp only [Option.getD_none, le_refl, hlo, and_self, if_true] at hf
  have hvisit : ∀ s : State K, visit c s (c.top, c.lo) = .returned none := by
    intro s; simp [visit, hsl, hin, hid]
  have key : ∀ s : State K, s.queue = [(c.top, c.lo)] → ∀ q, Step c s q → q = .returned none := by
    intro s hs q hq
    cases hq with
    | empty h => rw [hs] at h; simp at h
    | pop x hx _ =>
      rw [hs, List.mem_singleton] at hx
      subst hx
      exact hvisit _
  cases hf with
  | returned _ r h => exact key _ rfl _ h
  | ub _ h => exact absurd (key _ rfl _ h) (by simp)
  | more _ s' _ h _ => exact absurd (key _ rfl _ h) (by simp)

/-- Points of the examples. -/
def exPts : Nat → Vec 2 ℚ := fun n => match n with
  | 0 => ![0, 0]
  | 1 => ![1, 0]
  | 2 => ![0, 1]
  | _ => ![1, 1]

/-- Two triangles that share an edge. -/
def exSlot : Nat → Option (Slot 2) := fun n => match n with
  | 0 => some ⟨some 0, ![0, 1, 2], ![some 1, none, none]⟩
  | 1 => some ⟨some 1, ![1, 2, 3], ![none, none, some 0]⟩
  | _ => none

/-- A removed triangle and its copy. -/
def staleSlot : Nat → Option (Slot 2) := fun n => match n with
  | 0 => some ⟨none, ![0, 1, 2], ![some 1, none, none]⟩
  | 1 => some ⟨some 1, ![0, 1, 2], ![none, none, none]⟩
  | _ => none

theorem exReach (p : Vec 2 ℚ) (a : Nat) (h : Reach (scene2 exSlot 0 1 100 exPts p) 0 a) : a = 0 ∨ a = 1 := by
  induction h with
  | refl => exact .inl rfl
  | tail _ hab ih =>
    obtain ⟨sl, hsl, d, hd⟩ := hab
    rcases ih with rfl | rfl
    · cases hsl
      fin_cases d <;> simp at hd
      exact .inr hd.symm
    · cases hsl
      fin_cases d <;> simp at hd
      exact .inl hd.symm

theorem exReach_one (p : Vec 2 ℚ) : Reach (scene2 exSlot 0 1 100 exPts p) 0 1 :=
  Relation.ReflTransGen.single ⟨_, rfl, 0, rfl⟩

/-- The hypotheses of `C73_plane`, `C73_partial`, `C73_defined` and `C73_valid` are met when (3/4, 3/4) is searched from the
other triangle. -/
example : ∃ o, Find (scene2 exSlot 0 1 100 exPts ![3/4, 3/4]) none o ∧ ∃ a sl, exSlot a = some sl ∧ o = .returned (some a) ∧
    ∃ w : Fin 3 → ℚ, (∀ i, 0 ≤ w i) ∧ w 0 + w 1 + w 2 = 1 ∧
      ∀ i, (![3/4, 3/4] : Vec 2 ℚ) i = w 0 * exPts (sl.verts 0) i + w 1 * exPts (sl.verts 1) i + w 2 * exPts (sl.verts 2) i := by
  obtain ⟨o, ho⟩ := C73_outcome (scene2 exSlot 0 1 100 exPts ![3/4, 3/4]) none
  refine ⟨o, ho, C73_plane exSlot 0 1 100 exPts _ none o ho ?_ ⟨1, _, exReach_one _, rfl, ![1/4, 1/4, 1/2], ?_, ?_, ?_⟩⟩
  · intro a ha
    rcases exReach _ a ha with rfl | rfl
    · refine ⟨⟨_, rfl, rfl, ?_⟩, by omega, by omega⟩
      simp [Geom.NonDeg2, exPts]
    · refine ⟨⟨_, rfl, rfl, ?_⟩, by omega, by omega⟩
      simp only [Geom.NonDeg2, exPts, Fin.forall_fin_two]
      rintro x y ⟨h0, h1⟩
      simp at h0 h1
      constructor <;> linarith
  · intro i; fin_cases i <;> norm_num
  · show (1 / 4 + 1 / 4 + 1 / 2 : ℚ) = 1
    norm_num
  · intro i
    fin_cases i
    · show (3 / 4 : ℚ) = 1 / 4 * 1 + 1 / 4 * 0 + 1 / 2 * 1
      norm_num
    · show (3 / 4 : ℚ) = 1 / 4 * 0 + 1 / 4 * 1 + 1 / 2 * 1
      norm_num

/-- **C73 is violated.** The search from the default start simplex can return the invalid id though a valid simplex with the
point is reachable: the slot at the lower bound may be one that was removed from the triangulation. -/
theorem C73_violated : ∃ (slot : Nat → Option (Slot 2)) (p : Vec 2 ℚ),
    let c := scene2 slot 0 1 100 exPts p
    (∃ a sl, Reach c 0 a ∧ slot a = some sl ∧ sl.id = some a ∧ c.inS sl.verts = true) ∧ ∀ o, Find c none o → o = .returned none := by
  have hin : (scene2 staleSlot 0 1 100 exPts ![1/4, 1/4]).inS ![0, 1, 2] = true := by
    rw [show (scene2 staleSlot 0 1 100 exPts ![1/4, 1/4]).inS ![0, 1, 2] = Geom.inSimplex2 ![1/4, 1/4] (exPts 0) (exPts 1) (exPts 2) from rfl,
      Geom.C39_inSimplex2 _ _ _ _ (by simp [Geom.NonDeg2, exPts])]
    refine ⟨1/2, 1/4, 1/4, by norm_num, by norm_num, by norm_num, by norm_num, ?_⟩
    intro i; fin_cases i <;> norm_num [exPts]
  refine ⟨staleSlot, ![1/4, 1/4], ⟨1, _, Relation.ReflTransGen.single ⟨_, rfl, 0, rfl⟩, rfl, rfl, hin⟩, ?_⟩
  intro o ho
  exact stale_start _ _ (by decide) rfl rfl hin o ho

/-- **C73 (nearest simplex) is violated.** A point outside of the only simplex has no nearest simplex: the start simplex is
never taken as the nearest one. -/
theorem C73_nearest_violated (c : Scene D K) (hint : Nat) (sl : Slot D) (hlo : c.lo ≤ hint) (hhi : hint ≤ c.hi)
    (hsl : c.slot hint = some sl) (hin : c.inS sl.verts = false) (hn : ∀ d, sl.nbrs d = none) (o : Out K)
    (hf : Find c (some hint) o) : o = .returned none := by
  unfold Find start at hf
  simp only [Option.getD_some, hlo, hhi, and_self, if_true] at hf
  have hfold : ∀ (l : List (Fin (D + 1))) (s : State K), l.foldl (enqueue c sl) (some s) = some s := by
    intro l
    induction l with
    | nil => intro s; rfl
    | cons d l ih => intro s; rw [List.foldl_cons]; simp only [enqueue, Option.bind_some, hn d]; exact ih s
  have key : ∀ s : State K, s.queue = [(c.top, hint)] → s.minD = c.top → ∀ q, Step c s q →
      q = .running { s with queue := [] } := by
    intro s hs hd q hq
    cases hq with
    | empty h => rw [hs] at h; simp at h
    | pop x hx _ =>
      rw [hs, List.mem_singleton] at hx
      subst hx
      simp only [visit, hsl, hin, Bool.false_eq_true, if_false, hd, lt_irrefl, hs, List.erase_cons_head, hfold]
  cases hf with
  | returned _ r h => exact absurd (key _ rfl rfl _ h) (by simp)
  | ub _ h => exact absurd (key _ rfl rfl _ h) (by simp)
  | more _ s' _ h h' =>
    have := key _ rfl rfl _ h
    cases this
    have key2 : ∀ s : State K, s.queue = [] → ∀ q, Step c s q → q = .returned s.minId := by
      intro s hs q hq
      cases hq with
      | empty _ => rfl
      | pop x hx _ => rw [hs] at hx; simp at hx
    cases h' with
    | returned _ r h => exact key2 _ rfl _ h
    | ub _ h => exact absurd (key2 _ rfl _ h) (by simp)
    | more _ s' _ h _ => exact absurd (key2 _ rfl _ h) (by simp)

/-! ### The nearest vertex -/

/-- **C73 (nearest vertex).** `findNearestVertex` returns the first nearest vertex of a simplex, if its distance is less than
the largest number. -/
theorem C73_nearestVertex (top : K) (dist : Nat → K) (verts : Fin (D + 1) → Nat) (h : ∃ d, dist (verts d) < top) :
    ∃ d, nearestVertex top dist verts = some (verts d) ∧ ∀ e, dist (verts d) ≤ dist (verts e) := by
  have key : ∀ (l : List (Fin (D + 1))) (s : K × Option Nat), (s.1 = top ∨ ∃ d, s = (dist (verts d), some (verts d))) →
      let r := l.foldl (fun (s : K × Option Nat) d => if dist (verts d) < s.1 then (dist (verts d), some (verts d)) else s) s
      (r = s ∨ ∃ d, r = (dist (verts d), some (verts d))) ∧ r.1 ≤ s.1 ∧ ∀ d ∈ l, r.1 ≤ dist (verts d) := by
    intro l
    induction l with
    | nil => intro s _; simp
    | cons d l ih =>
      intro s hs
      simp only [List.foldl_cons]
      split_ifs with hlt
      · obtain ⟨h1, h2, h3⟩ := ih (dist (verts d), some (verts d)) (.inr ⟨d, rfl⟩)
        refine ⟨.inr ?_, h2.trans hlt.le, ?_⟩
        · rcases h1 with h1 | h1
          · exact ⟨d, h1⟩
          · exact h1
        · intro e he
          rcases List.mem_cons.mp he with rfl | he
          · exact h2
          · exact h3 e he
      · obtain ⟨h1, h2, h3⟩ := ih s hs
        refine ⟨h1, h2, fun e he => ?_⟩
        rcases List.mem_cons.mp he with rfl | he
        · exact h2.trans (not_lt.mp hlt)
        · exact h3 e he
  obtain ⟨h1, _, h3⟩ := key (List.finRange (D + 1)) (top, none) (.inl rfl)
  obtain ⟨d, hd⟩ := h
  rcases h1 with h1 | ⟨e, h1⟩
  · have := h3 d (List.mem_finRange d)
    rw [h1] at this
    exact absurd this (not_le.mpr hd)
  · refine ⟨e, by rw [nearestVertex, h1], fun e' => ?_⟩
    have := h3 e' (List.mem_finRange e')
    rw [h1] at this
    exact this

/-- Of the vertices with distances 5, 2, 2 the second is returned. -/
example : nearestVertex 100 (fun n => if n = 7 then (5 : ℤ) else 2) ![7, 8, 9] = some 8 := by decide

/-- The hypotheses of `C73_nearest_violated` are met. -/
example : ∃ o, Find (⟨fun n => if n = 0 then some ⟨some 0, ![0, 1, 2], fun _ => none⟩ else none, 0, 0, 100, fun _ => false, fun _ _ => 3⟩ :
    Scene 2 ℤ) (some 0) o ∧ o = .returned none := by
  obtain ⟨o, ho⟩ := C73_outcome (⟨fun n => if n = 0 then some ⟨some 0, ![0, 1, 2], fun _ => none⟩ else none, 0, 0, 100, fun _ => false, fun _ _ => 3⟩ :
    Scene 2 ℤ) (some 0)
  exact ⟨o, ho, C73_nearest_violated _ 0 _ (le_refl _) (le_refl _) rfl rfl (fun _ => rfl) o ho⟩

end Locate
end Verif
