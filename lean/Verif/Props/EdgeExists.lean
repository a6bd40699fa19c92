import Verif.Lemmas.EdgeSolo
import Verif.Props.EdgeTriangulate
import Verif.Props.Construct

/-!
# C113: the extraction and the whole algorithm with one thread have results
-/
namespace Verif
namespace Edges
open DC Euc

/-- **C113 (partial): termination.** One thread extracts the edges of any number of parts of at least four points. It never
gets stuck, no execution is infinite and there is a result, however often the sets grow, if the ids fit into 64 bits and the
multiplier is odd. Missing: several threads, which wait for each other when a set grows. -/
theorem C113_terminates_partial {P : Nat} (D a n : Nat) (hD : D < 64) (hn : 4 ≤ n) (ha : Odd a) (Ts : Fin P → Tri)
    (meets : Fin P → Nat → Bool)
    (hT : ∀ i, (Ts i).Wf ∧ ∀ x, (Ts i).contains x = true →
      (x ≠ 0 ∧ x < 2 ^ 64) ∧ ∀ v ∈ (Ts i).vs x, v ≠ 0 ∧ v < 2 ^ 64)
    (hm : ∀ i, (Ts i).mark + 2 < 256) :
    (¬ ∃ f : Nat → Loop 1 P, f 0 = Loop.init a n Ts ∧ ∀ k, Loop.Step D Ts meets (f k) (f (k + 1))) ∧
    (∀ s : Loop 1 P, Relation.ReflTransGen (Loop.Step D Ts meets) (Loop.init a n Ts) s →
      s.final ∨ ∃ s', Loop.Step D Ts meets s s') ∧
    ∃ s, Extracts D 1 a n Ts meets s := by
  have hT' : ∀ i, IdsOk (Ts i) ∧ IdsLt (Ts i) := fun i =>
    ⟨⟨(hT i).1, fun x hx => ⟨((hT i).2 x hx).1.1, fun v hv => (((hT i).2 x hx).2 v hv).1⟩⟩,
      fun x hx => ⟨((hT i).2 x hx).1.2, fun v hv => (((hT i).2 x hx).2 v hv).2⟩⟩
  have hi : Inv D a n Ts meets (Loop.init a n Ts) := Inv.init hn
  refine ⟨?_, fun s hs => ?_, ?_⟩
  · rintro ⟨f, h0, hf⟩
    have hacc := Inv.acc hD ha hT' hm _ hi
    rw [← h0] at hacc
    suffices hx : ∀ s : Loop 1 P, Acc (fun y x : Loop 1 P => Loop.Step D Ts meets x y) s → ∀ k, f k ≠ s from hx _ hacc 0 rfl
    intro s hs
    induction hs with
    | intro s _ ih =>
      rintro k rfl
      exact ih (f (k + 1)) (hf k) (k + 1) rfl
  · rcases (hi.steps hD ha hT' hm hs).progress with h | ⟨m, s', h⟩
    · exact Or.inl h
    · exact Or.inr ⟨s', 0, m, h⟩
  · exact Inv.finish hD ha hT' hm _ hi

/-- Two parts with two triangles each. -/
example (meets : Fin 2 → Nat → Bool) : ∃ s, Extracts 2 1 9 16 strips meets s :=
  (C113_terminates_partial 2 9 16 (by omega) (by omega) (by decide) strips meets (fun i => by
    refine ⟨⟨?_, ?_, fun x _ => rfl⟩, ?_⟩
    · intro x hx _
      revert x
      revert i
      decide
    · intro x hx n hn hf
      have hx := (Tri.contains_iff.mp hx).1
      have key : ∀ i, ∀ x ∈ (strips i).range, ∀ n ∈ (strips i).ns x, n ≠ sINF → (strips i).contains n = true := by
        decide
      exact key i x hx n hn hf
    · intro x hx
      have hx := (Tri.contains_iff.mp hx).1
      have key : ∀ i, ∀ x ∈ (strips i).range, (x ≠ 0 ∧ x < 2 ^ 64) ∧ ∀ v ∈ (strips i).vs x, v ≠ 0 ∧ v < 2 ^ 64 := by
        decide
      exact key i x hx) (fun i => by simp [strips])).2.2

theorem serial_not_late {N a size m : Nat} (hs : 0 < size) {c : Conc.Config N Growing.Shared Growing.Loc Growing.Op ConcSet.SetRet}
    (h : Growing.ReachSerial (Growing.new a size m) c) (t : Fin N) : ¬ Growing.Late c t := by
  have key : (∀ t A, c.th t = some A → Growing.SL c.sh A.loc) ∧ Growing.SerialInserts c := by
    induction h with
    | init =>
      refine ⟨?_, ?_⟩
      · intro t A hA
        cases hA
      · intro t u A B i j k l hA
        cases hA
    | step h0 hst hex hser ih =>
      exact ⟨Growing.SL_step (Growing.timely_CI hs (Growing.serial_timely hs h0)) ih.1 ih.2 hst, hser⟩
  exact Growing.not_late (Growing.timely_CI hs (Growing.serial_timely hs h)) key.1 key.2 t

/-- The writes of one thread are never late. -/
theorem one_thread_timely {P D a n : Nat} (hD : D < 64) (hn : 4 ≤ n) {Ts : Fin P → Tri} {meets : Fin P → Nat → Bool}
    (hT : ∀ i, IdsOk (Ts i)) {s : Loop 1 P} (hs : Extracts D 1 a n Ts meets s) : Timely D 1 a P n Ts meets s := by
  refine ⟨?_, hs.2⟩
  have h1 := hs.1
  clear hs
  induction h1 with
  | refl => exact .refl
  | tail h0 h1 ih =>
    obtain ⟨e, he⟩ := EInv.init.steps hD hT h0
    obtain ⟨t, m, h1⟩ := h1
    refine ih.tail ⟨t, m, h1, fun j => ?_⟩
    have hsz : 0 < capacity n j := by cases j <;> simp only [capacity] <;> omega
    refine serial_not_late (a := a) (m := 1) hsz ?_ t
    have h4 := he.exec j
    revert h4
    generalize Loop.c _ j = c
    intro h4
    induction h4 with
    | init => exact .init
    | step _ hst hex ih => exact .step ih hst hex (fun t u _ _ _ _ _ _ _ _ _ _ => Subsingleton.elim t u)

/-- Fewer outcomes of the extraction, fewer results. -/
theorem Triangulate.mono {D : Nat} {K : Type} {A : Params D K} {N : Nat}
    {Res Res' : (P n : Nat) → (Fin P → Tri) → (Fin P → Nat → Bool) → Loop N P → Prop}
    (hr : ∀ P n Ts meets s, Res P n Ts meets s → Res' P n Ts meets s) {len : Nat} {S : Finset Nat} {T : Tri}
    (h : Triangulate A N Res len S T) : Triangulate A N Res' len S T := by
  induction h with
  | base len S T hc hb => exact .base len S T hc hb
  | node len S hc ps hps Ts hz _ s hx E _ hE' hdisj R hm ih ihE =>
    exact .node len S hc ps hps Ts hz ih s (hr _ _ _ _ _ hx) E ihE hE' hdisj R hm

theorem Timely.extracts {N P D a n : Nat} {Ts : Fin P → Tri} {meets : Fin P → Nat → Bool} {s : Loop N P}
    (h : Timely D N a P n Ts meets s) : Extracts D N a n Ts meets s := by
  refine ⟨?_, h.2⟩
  have h1 := h.1
  clear h
  induction h1 with
  | refl => exact .refl
  | tail _ h1 ih =>
    obtain ⟨t, m, h1, _⟩ := h1
    exact ih.tail ⟨t, m, h1⟩

variable {D : Nat} {K W : Type} [Field K] [LinearOrder K] [IsStrictOrderedRing K] [AddCommGroup W] [Module K W]
  {x : Nat → W} {h : Nat → K} {S₀ : Finset Nat}

/-- The algorithm with one thread and growing sets has a result, if there are enough ids. -/
theorem triangulate_exists [Module.Finite K W] (A : Params D K) (hD : D < 64) (hw : World D x h S₀) (hA : ParamsOk A x h S₀)
    (h0 : 0 ∉ S₀) (hcut : 3 ≤ A.cutoff) {a B Q : Nat} (ha : Odd a)
    (hbase : ∀ S lo, infPts D ⊆ S → S ⊆ S₀ → 0 < lo → lo + B < 2 ^ 64 → ∃ T, A.base S T ∧ ∀ i ∈ T.range, lo ≤ i ∧ i < lo + B)
    (hsplit : ∀ len S, infPts D ⊆ S → S ⊆ S₀ → A.cutoff < S.card → ∃ ps, A.split len S ps ∧ ps.length ≤ Q) :
    ∀ (n len : Nat) (S : Finset Nat) (lo : Nat), A.depth - (len - 1) = n → 1 ≤ len → infPts D ⊆ S → S ⊆ S₀ → 0 < lo →
      lo + B * (Q + 1) ^ n < 2 ^ 64 →
      ∃ T, Triangulate A 1 (Timely D 1 a) len S T ∧ ∀ i ∈ T.range, lo ≤ i ∧ i < lo + B * (Q + 1) ^ n := by
  have href := refines (x := x) (h := h) (S₀ := S₀) (A := A) (N := 1) (Res := Timely D 1 a)
    (fun P n Ts meets s hn hok hx => C113_partial D a n hD hn Ts meets hok s hx.1 hx.2) hD hw hA h0 hcut
  intro n
  induction n with
  | zero =>
    intro len S lo hn hl hI hS hlo hB
    rw [pow_zero, mul_one] at hB
    obtain ⟨T, h1, h2⟩ := hbase S lo hI hS hlo hB
    exact ⟨T, .base len S T (by omega) h1, by simpa using h2⟩
  | succ n ih =>
    intro len S lo hn hl hI hS hlo hB
    have hpow : B ≤ B * (Q + 1) ^ (n + 1) := Nat.le_mul_of_pos_right _ (Nat.pow_pos (by omega))
    by_cases hc : len - 1 < A.depth ∧ A.cutoff < S.card
    swap
    · obtain ⟨T, h1, h2⟩ := hbase S lo hI hS hlo (by omega)
      exact ⟨T, .base len S T hc h1, fun i hi => ⟨(h2 i hi).1, by have := (h2 i hi).2; omega⟩⟩
    have hdep := hA.depth
    obtain ⟨ps, hps, hlen⟩ := hsplit len S hI hS hc.2
    have hpart := part_bounds (by omega) hw hA hI hS hc.2 hps
    set c := B * (Q + 1) ^ n with hcdef
    have hcs : B * (Q + 1) ^ (n + 1) = (Q + 1) * c := by rw [hcdef, pow_succ]; ring
    rw [hcs] at hB ⊢
    have hle : ∀ j : Fin ps.length, (j.val + 1) * c ≤ Q * c := fun j => Nat.mul_le_mul_right _ (by omega)
    have hlen' : ps.length * c ≤ Q * c := Nat.mul_le_mul_right _ hlen
    have hQ : (Q + 1) * c = Q * c + c := by ring
    have hT0' := fun j : Fin ps.length => ih (len + 1) ps[j].points (lo + j * c) (by omega) (by omega) (hpart j).1
      ((hpart j).2.trans hS) (by omega) (by
        have h1 := hle j
        have h2 : (j.val + 1) * c = j * c + c := by ring
        omega)
    choose T0 hT0 hT0r using hT0'
    have hT0lt : ∀ j, ∀ i ∈ (T0 j).range, 0 < i ∧ i < lo + ps.length * c := by
      intro j i hi
      have h1 := hT0r j i hi
      have h2 : (j.val + 1) * c = j * c + c := by ring
      have h3 : (j.val + 1) * c ≤ ps.length * c := Nat.mul_le_mul_right _ (by omega)
      omega
    have h0 : ∀ j : Fin ps.length, IsDT D x h ps[j].points (T0 j) ∧ (T0 j).MarksOk ∧
        (T0 j).mark ≤ 6 * (A.depth - len) := by
      intro j
      have := triangulate_correct A (by omega) hw hA _ _ _ (href _ _ _ (hT0 j) (by omega) (hpart j).1 ((hpart j).2.trans hS))
        (by omega) (hpart j).1 ((hpart j).2.trans hS)
      rw [show len + 1 - 1 = len by omega] at this
      exact this
    have hz : ∀ j, 0 ∉ (T0 j).range := fun j hj => absurd (hT0lt j 0 hj).1 (by omega)
    have hok : ∀ i, (T0 i).Wf ∧ ∀ x, (T0 i).contains x = true →
        (x ≠ 0 ∧ x < 2 ^ 64) ∧ ∀ v ∈ (T0 i).vs x, v ≠ 0 ∧ v < 2 ^ 64 := by
      intro i
      refine ⟨(h0 i).1.wf, fun y hy => ⟨?_, fun v hv => ?_⟩⟩
      · have := hT0lt i y (Tri.contains_iff.mp hy).1
        omega
      · have hvS : v ∈ S₀ := hS ((hpart i).2 (((h0 i).1.sound y hy).1 (List.mem_toFinset.mpr hv)))
        refine ⟨?_, hw.ids v hvS⟩
        rintro rfl
        exact ‹0 ∉ S₀› hvS
    obtain ⟨s, hs⟩ := (C113_terminates_partial D a S.card hD (by omega) ha T0
      (fun i x => meetsOther ps.length i (A.interPart ps ((T0 i).vs x))) hok
      (fun i => by have := (h0 i).2.2; omega)).2.2
    obtain ⟨eS', eP', hge, _, hS', _, hP'⟩ := C113_one_thread_partial D a S.card hD (by omega) T0 _
      (fun i => ⟨(hok i).1, fun y hy => ⟨((hok i).2 y hy).1.1, fun v hv => (((hok i).2 y hy).2 v hv).1⟩⟩) s hs
    let T1 := s.tri T0
    let eS : Nat → Finset Nat := fun i => if hi : i < ps.length then eS' ⟨i, hi⟩ else ∅
    let eP : Nat → Finset Nat := fun i => if hi : i < ps.length then eP' ⟨i, hi⟩ else ∅
    have hun : ∀ f : Fin ps.length → Finset Nat, Finset.univ.biUnion f =
        (Finset.range ps.length).biUnion fun i => if hi : i < ps.length then f ⟨i, hi⟩ else ∅ := by
      intro f
      ext v
      simp only [Finset.mem_biUnion, Finset.mem_univ, true_and, Finset.mem_range]
      constructor
      · rintro ⟨i, hv⟩
        exact ⟨i, i.2, by simpa using hv⟩
      · rintro ⟨i, hi, hv⟩
        rw [dif_pos hi] at hv
        exact ⟨_, hv⟩
    have heS : ∀ j : Fin ps.length, eS j = eS' j := fun j => dif_pos j.2
    have heP : ∀ j : Fin ps.length, eP j = eP' j := fun j => dif_pos j.2
    obtain ⟨hIV, hVS, hT1m, hnode⟩ := node_hyp (T0 := T0) (T1 := T1) (eS := eS) (eP := eP) (by omega) hw hA hI hS hc.2 hps
      (fun j => ⟨(h0 j).1, (h0 j).2.1, by have := (h0 j).2.2; omega⟩)
      (fun j => by rw [heS, heP]; exact hge j)
    have hVe : (Finset.range ps.length).biUnion eP = (s.ids true).toFinset := by rw [hP', hun]
    have hSe : (Finset.range ps.length).biUnion eS = (s.ids false).toFinset := by rw [hS', hun]
    set V := (s.ids true).toFinset with hV
    rw [hVe] at hIV hVS hnode
    rw [hSe] at hnode
    obtain ⟨E, hE, hEr⟩ : ∃ E, (if A.parEdge = true then Triangulate A 1 (Timely D 1 a) (len + 1) V E
        else A.base V E) ∧ ∀ i ∈ E.range, lo + ps.length * c ≤ i ∧ i < lo + ps.length * c + c := by
      by_cases hpe : A.parEdge = true
      · simp only [if_pos hpe]
        exact ih (len + 1) V _ (by omega) (by omega) hIV (hVS.trans hS) (by omega) (by omega)
      · simp only [if_neg hpe]
        have hBc : B ≤ c := Nat.le_mul_of_pos_right _ (Nat.pow_pos (by omega))
        obtain ⟨E, h1, h2⟩ := hbase V (lo + ps.length * c) hIV (hVS.trans hS) (by omega) (by omega)
        exact ⟨E, h1, fun i hi => ⟨(h2 i hi).1, by have := (h2 i hi).2; omega⟩⟩
    have hEdt : IsDT D x h V E ∧ E.MarksOk ∧ E.mark ≤ 6 * (A.depth - len) := by
      by_cases hpe : A.parEdge = true
      · rw [if_pos hpe] at hE
        have := triangulate_correct A (by omega) hw hA _ _ _ (href _ _ _ hE (by omega) hIV (hVS.trans hS)) (by omega) hIV
          (hVS.trans hS)
        rw [show len + 1 - 1 = len by omega] at this
        exact this
      · rw [if_neg hpe] at hE
        obtain ⟨a1, a2, a3⟩ := hA.base V E hIV (hVS.trans hS) hE
        exact ⟨a1, a2, by omega⟩
    have hdE : ∀ j, Disjoint E.range (T1 j).range := fun j => by
      rw [(hT1m j).1, Finset.disjoint_left]
      intro i hi hj
      have h1 := hEr i hi
      have h2 := hT0lt j i hj
      omega
    have hd : ∀ j k, j ≠ k → Disjoint (T1 j).range (T1 k).range := fun j k hjk => by
      rw [(hT1m j).1, (hT1m k).1, Finset.disjoint_left]
      intro i hi hj
      have h1 := hT0r j i hi
      have h2 := hT0r k i hj
      have h3 : ∀ u v : Nat, u < v → u * c + c ≤ v * c := fun u v huv => by
        have : (u + 1) * c ≤ v * c := Nat.mul_le_mul_right _ huv
        have e : (u + 1) * c = u * c + c := by ring
        omega
      rcases lt_trichotomy j.val k.val with hlt | heq | hgt
      · have := h3 _ _ hlt
        omega
      · exact hjk (Fin.ext heq)
      · have := h3 _ _ hgt
        omega
    have hnode := hnode E hEdt.1 hdE hd
    have hmarks : ∀ j, (T1 j).MarksOk ∧ (T1 j).mark + 4 < 256 := by
      intro j
      refine ⟨(hT1m j).2.1, ?_⟩
      have e1 := (hT1m j).2.2
      have e2 := (h0 j).2.2
      omega
    have hmarkE : E.MarksOk ∧ E.mark + 4 < 256 := ⟨hEdt.2.1, by have := hEdt.2.2; omega⟩
    have hin := hnode.mergeIn hmarks hmarkE
    have hne : ps ≠ [] := by
      rintro rfl
      obtain ⟨j, _⟩ := (hnode.split.two)
      simp_all
    obtain ⟨R, hR⟩ := C49_mergeTriangulation_exists A.hash ps (List.ofFn T1) (s.ids false).toFinset E
      hin (by simpa using hne) (by
        intro i hi
        have hl := hEdt.1.len hw.dim hi
        refine ⟨(E.vs i)[0], List.getElem?_eq_getElem (by omega), ?_⟩
        have hv : (E.vs i)[0]'(by omega) ∈ S := hVS ((hEdt.1.sound i hi).1 (List.mem_toFinset.mpr (List.getElem_mem _)))
        have hmh := hnode.split.mergeHyp (by omega) (hw.mono hS hI)
        obtain ⟨j, _⟩ := hmh.two
        rcases (hmh.mem_S _).mp hv with hv | ⟨k, hk⟩
        · exact ⟨ps[j], List.getElem_mem _, (hpart j).1 hv⟩
        · exact ⟨ps[k], List.getElem_mem _, (Finset.mem_filter.mp hk).1⟩)
      (by
        intro B hB i hi
        rcases List.mem_cons.mp hB with rfl | hB
        · exact hEdt.1.nlen i hi
        · obtain ⟨j, rfl⟩ := List.mem_ofFn.mp hB
          exact (hnode.dt j).nlen i hi)
    refine ⟨R, .node len S hc ps hps T0 hz hT0 s (one_thread_timely hD (by omega)
        (fun i => ⟨(hok i).1, fun y hy => ⟨((hok i).2 y hy).1.1, fun v hv => (((hok i).2 y hy).2 v hv).1⟩⟩) hs) E
      (fun hpe => by rw [if_pos hpe] at hE; exact hE) (fun hpe => by rw [if_neg (by simp [hpe])] at hE; exact hE)
      hin.disj R hR, ?_⟩
    obtain ⟨M, ins, wu, HM, get, ns, mks, _, _, rfl⟩ := merged hin hR
    intro i hi
    obtain ⟨B, hB, hiB⟩ := (HM.range i).mp hi
    rcases List.mem_cons.mp hB with rfl | hB
    · have := hEr i hiB
      omega
    · obtain ⟨j, rfl⟩ := List.mem_ofFn.mp hB
      rw [(hT1m j).1] at hiB
      have h1 := hT0r j i hiB
      have h2 := hT0lt j i hiB
      omega

omit [IsStrictOrderedRing K] in
/-- The number of parts. -/
theorem parts_length {sp : Part.Splitter} {big tiny : K} {pts : Nat → Vec D K} {len : Nat} {S : Finset Nat}
    {ps : List (Part.Partition D K)} (hps : sp.Parts big tiny pts len S ps) : ps.length = parts D sp := by
  have hd : ∀ (partOf : Nat → Option Nat) (ids : List Nat) (qs rs : List (Part.Partition D K)),
      Part.distribute D partOf ids qs = some rs → rs.length = qs.length := by
    intro partOf ids
    induction ids with
    | nil =>
      intro qs rs h
      injection h with h
      rw [h]
    | cons id ids ih =>
      intro qs rs h
      simp only [Part.distribute] at h
      split_ifs at h
      · exact ih qs rs h
      · obtain ⟨part, _, h⟩ := Option.bind_eq_some_iff.1 h
        obtain ⟨qs', h1, h⟩ := Option.bind_eq_some_iff.1 h
        rw [ih qs' rs h]
        unfold Part.insertAt at h1
        split at h1
        · injection h1 with h1
          rw [← h1, List.length_set]
        · cases h1
  have ha : ∀ ign (qs : List (Part.Partition D K)), (Part.addInfinite D ign qs).length = qs.length := by
    intro ign qs
    unfold Part.addInfinite
    split_ifs <;> simp
  have ht : ∀ stats (k : Nat) (ids : List Nat) ign, Part.twoWay stats k pts ids ign = some ps → ps.length = 2 := by
    intro stats k ids ign h
    obtain ⟨qs, h1, rfl⟩ := Option.map_eq_some_iff.1 h
    rw [ha, hd _ _ _ _ h1]
    rfl
  obtain ⟨ids, work, _, _, _, h⟩ := hps
  cases sp with
  | dWay =>
    obtain ⟨qs, h1, rfl⟩ := Option.map_eq_some_iff.1 h
    rw [ha, hd _ _ _ _ h1]
    simp [Part.dWayInit, parts]
  | oneDim k => exact ht _ _ _ _ h
  | cycle => exact ht _ _ _ _ h
  | extend => exact ht _ _ _ _ h

section
variable {pts : Nat → Vec D K} {hash : Nat → BitVec 32} {depth cutoff : Nat} {parEdge : Bool} {base : Finset Nat → Tri → Prop}
  {sp : Part.Splitter} {big tiny : K} {cs : List Nat → Sphere D K}

/-- **C113 (partial): the whole algorithm returns.** With one thread and growing sets on every level `_triangulate` has a
result, which is a Delaunay triangulation of all points, if the base triangulator returns something with `B` consecutive ids
or fewer, and the ids of all calls fit into 64 bits. Missing: several threads. -/
theorem C113_returns_partial (a B : Nat) (ha : Odd a) (hD : D < 64) (hs : Scene D pts S₀)
    (hq : SettingOk depth cutoff sp big tiny pts cs S₀) (ht : Tie pts h S₀) (hb : BaseOk pts h base S₀)
    (h0 : 0 ∉ S₀) (hcut : 3 ≤ cutoff)
    (hfresh : ∀ S lo, infPts D ⊆ S → S ⊆ S₀ → 0 < lo → lo + B < 2 ^ 64 → ∃ T, base S T ∧ ∀ i ∈ T.range, lo ≤ i ∧ i < lo + B)
    (hids : 1 + B * (parts D sp + 1) ^ depth < 2 ^ 64) :
    ∃ T, Triangulate (params hash depth cutoff parEdge base sp big tiny pts cs) 1 (Timely D 1 a) 1 S₀ T ∧
      Triangulate (params hash depth cutoff parEdge base sp big tiny pts cs) 1 (fun _ n => Extracts D 1 a n) 1 S₀ T ∧
      Delaunay D pts S₀ T := by
  obtain ⟨T, hT, _⟩ := triangulate_exists (params hash depth cutoff parEdge base sp big tiny pts cs) hD
    (hs.world ht) (hq.params hs ht hb) h0 hcut ha hfresh
    (fun len S _ hS hc => by
      obtain ⟨h1, h2, h3⟩ := hq.parts hs hS hc len
      obtain ⟨ps, hps⟩ := Part.Splitter.Parts.exists hq.dim h1 h2 h3
      exact ⟨ps, hps, (parts_length hps).le⟩)
    _ 1 S₀ 1 rfl le_rfl hs.inf (Finset.Subset.refl _) (by omega) hids
  exact ⟨T, hT, hT.mono fun _ _ _ _ _ h => h.extracts, C113_delaunay_partial 1 a hD hs hq ht hb h0 hcut T hT⟩

/-- Such base triangulators exist. -/
theorem base_at (hs : Scene D pts S₀) (ht : Tie pts h S₀) :
    ∃ base, BaseOk pts h base S₀ ∧ ∀ S lo, infPts D ⊆ S → S ⊆ S₀ → 0 < lo → lo + 2 ^ S₀.card < 2 ^ 64 →
      ∃ T, base S T ∧ ∀ i ∈ T.range, lo ≤ i ∧ i < lo + 2 ^ S₀.card := by
  refine ⟨fun S T => IsDT D (fun i => hom (pts i)) h S T ∧ T.MarksOk ∧ T.mark = 0, fun S T _ _ hT => hT, ?_⟩
  intro S lo hI hS hlo hlt
  have hle : 2 ^ S.card ≤ 2 ^ S₀.card := Nat.pow_le_pow_right (by omega) (Finset.card_le_card hS)
  obtain ⟨T, h1, h2, h3, h4⟩ := exists_isDT_at ((hs.world ht).mono hS hI) lo (fun k hk => by simp only [sINF]; omega)
  exact ⟨T, ⟨h1, h2, h3⟩, fun i hi => ⟨(h4 i hi).1, by have := (h4 i hi).2; omega⟩⟩

end

/-- All hypotheses hold for the four points of `samplePts`, and the triangulator with growing sets has an execution. -/
example : ∃ h base T, Tie (ctorPoints 100 1000000 (1 / 1000) samplePts [[4, 2], [], [1, 3]]) h ({1, 2, 3, 4} ∪ infPts 2) ∧
    BaseOk (ctorPoints 100 1000000 (1 / 1000) samplePts [[4, 2], [], [1, 3]]) h base ({1, 2, 3, 4} ∪ infPts 2) ∧
    Triangulate (params (fun v => BitVec.ofNat 32 v) 3 5 true base .extend 1000000 (1 / 1000)
      (ctorPoints 100 1000000 (1 / 1000) samplePts [[4, 2], [], [1, 3]])
      (cs2 Real.sqrt (ctorPoints 100 1000000 (1 / 1000) samplePts [[4, 2], [], [1, 3]]))) 1 (Timely 2 1 7) 1
      ({1, 2, 3, 4} ∪ infPts 2) T ∧
    Delaunay 2 (ctorPoints 100 1000000 (1 / 1000) samplePts [[4, 2], [], [1, 3]]) ({1, 2, 3, 4} ∪ infPts 2) T := by
  have hs := sampleInput.scene (by omega) sampleFar sampleInj
  obtain ⟨h, ht⟩ := Tie.exists hs.distinct
  obtain ⟨base, hb, hf⟩ := base_at hs ht
  have hcard : (({1, 2, 3, 4} : Finset Nat) ∪ infPts 2).card = 8 := by decide
  rw [hcard] at hf
  obtain ⟨T, hT, _, hd⟩ := C113_returns_partial (hash := fun v => BitVec.ofNat 32 v) (parEdge := true) 7 (2 ^ 8) (by decide)
    (by omega) hs sampleSetting ht hb (by decide) (by omega) hf (by simp only [parts]; norm_num)
  exact ⟨h, base, T, ht, hb, hT, hd⟩

end Edges
end Verif
