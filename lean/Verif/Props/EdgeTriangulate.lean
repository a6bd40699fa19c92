import Verif.Props.EdgeLoop
import Verif.Props.Delaunay

/-!
# C113: the divide-and-conquer algorithm with the growing sets of the code
-/
namespace Verif
namespace Edges
open DC

variable {D : Nat} {K W : Type} [Field K] [LinearOrder K] [IsStrictOrderedRing K] [AddCommGroup W] [Module K W]
  {x : Nat → W} {h : Nat → K} {S₀ : Finset Nat}

/-- If all outcomes of the extraction are correct, the algorithm behaves as with sets that lose nothing. -/
theorem refines [Module.Finite K W] {A : Params D K} {N : Nat}
    {Res : (P n : Nat) → (Fin P → Tri) → (Fin P → Nat → Bool) → Loop N P → Prop}
    (hres : ∀ P n Ts meets s, 4 ≤ n →
      (∀ i, (Ts i).Wf ∧ ∀ x, (Ts i).contains x = true → x ≠ 0 ∧ ∀ v ∈ (Ts i).vs x, v ≠ 0) →
      Res P n Ts meets s → Correct D Ts meets s)
    (hD : D < 64) (hw : World D x h S₀) (hA : ParamsOk A x h S₀) (h0 : 0 ∉ S₀) (hcut : 3 ≤ A.cutoff)
    (len : Nat) (S : Finset Nat) (T : Tri) (hT : Triangulate A N Res len S T) :
    1 ≤ len → infPts D ⊆ S → S ⊆ S₀ → DC.Triangulate A len S T := by
  induction hT with
  | base len S T hc hb => exact fun _ _ _ => .base len S T hc hb
  | node len S hc ps hps Ts hz hrec s hx E hE hE' hdisj R hm ih ihE =>
    intro hl hI hS
    have hpart := part_bounds (by omega) hw hA hI hS hc.2 hps
    have hsub : ∀ j : Fin ps.length, DC.Triangulate A (len + 1) ps[j].points (Ts j) := fun j =>
      ih j (by omega) (hpart j).1 ((hpart j).2.trans hS)
    have hdt := fun j : Fin ps.length => triangulate_correct A (by omega) hw hA _ _ _ (hsub j) (by omega) (hpart j).1
      ((hpart j).2.trans hS)
    have hok : ∀ i, (Ts i).Wf ∧ ∀ x, (Ts i).contains x = true → x ≠ 0 ∧ ∀ v ∈ (Ts i).vs x, v ≠ 0 := by
      intro i
      refine ⟨(hdt i).1.wf, fun y hy => ⟨?_, fun v hv => ?_⟩⟩
      · rintro rfl
        exact hz i (Tri.contains_iff.mp hy).1
      · rintro rfl
        exact h0 (hS ((hpart i).2 (((hdt i).1.sound y hy).1 (List.mem_toFinset.mpr hv))))
    obtain ⟨eS, eP, hge, _, hS', _, hP'⟩ := hres _ _ _ _ _ (by omega) hok hx
    let eS' : Nat → Finset Nat := fun i => if hi : i < ps.length then eS ⟨i, hi⟩ else ∅
    let eP' : Nat → Finset Nat := fun i => if hi : i < ps.length then eP ⟨i, hi⟩ else ∅
    have hun : ∀ f : Fin ps.length → Finset Nat, Finset.univ.biUnion f =
        (Finset.range ps.length).biUnion fun i => if hi : i < ps.length then f ⟨i, hi⟩ else ∅ := by
      intro f
      ext v
      simp only [Finset.mem_biUnion, Finset.mem_univ, true_and, Finset.mem_range]
      constructor
      · rintro ⟨i, hv⟩
        exact ⟨i, i.2, by simpa using hv⟩
      · rintro ⟨i, hi, hv⟩
        rw [dif_pos hi] at hv
        exact ⟨_, hv⟩
    have hIV : infPts D ⊆ (s.ids true).toFinset ∧ (s.ids true).toFinset ⊆ S := by
      have h1 := hdt
      have hdep := hA.depth
      have := node_hyp (x := x) (h := h) (by omega) hw hA hI hS hc.2 hps (T0 := Ts) (T1 := s.tri Ts) (eS := eS') (eP := eP')
        (fun j => ⟨(h1 j).1, (h1 j).2.1, by have := (h1 j).2.2; omega⟩) (by
          intro j
          simp only [eS', eP', dif_pos j.2]
          exact hge j)
      rw [hP', hun]
      exact ⟨this.1, this.2.1⟩
    refine .node len S hc ps hps (List.ofFn Ts) (by simp) ?_ (List.ofFn (s.tri Ts)) (by simp) eS' eP' ?_ E ?_ ?_ hdisj R ?_
    · intro i p T hp hT
      obtain ⟨hi, rfl⟩ := List.getElem?_eq_some_iff.mp hp
      rw [List.getElem?_ofFn, dif_pos hi] at hT
      obtain rfl := Option.some.inj hT
      exact hsub ⟨i, hi⟩
    · intro i T T' hT hT'
      have hi : i < ps.length := by
        by_contra hge'
        rw [List.getElem?_ofFn, dif_neg hge'] at hT
        exact absurd hT (by simp)
      rw [List.getElem?_ofFn, dif_pos hi] at hT hT'
      obtain rfl := Option.some.inj hT
      obtain rfl := Option.some.inj hT'
      simp only [eS', eP', dif_pos hi]
      exact hge ⟨i, hi⟩
    · intro hpe
      have := ihE hpe (by omega) hIV.1 (hIV.2.trans hS)
      rwa [hP', hun] at this
    · intro hpe
      have := hE' hpe
      rwa [hP', hun] at this
    · rwa [hS', hun] at hm

/-- The outcomes of the extraction in which no thread writes its id into a slot that has been handed out for copying. -/
def Timely (D N a P n : Nat) (Ts : Fin P → Tri) (meets : Fin P → Nat → Bool) (s : Loop N P) : Prop :=
  Relation.ReflTransGen (TimelyStep D Ts meets) (Loop.init a n Ts) s ∧ s.final

section
variable {pts : Nat → Vec D K} {hash : Nat → BitVec 32} {depth cutoff : Nat} {parEdge : Bool} {base : Finset Nat → Tri → Prop}
  {sp : Part.Splitter} {big tiny : K} {cs : List Nat → Sphere D K}

/-- **C113 (partial): the whole algorithm.** With growing sets on every level, any number of threads and any setting as in
C52, the result of `_triangulate` is a Delaunay triangulation of all points, if no thread writes an id into a slot of a
table that has already been handed out for copying. Missing: the code does not prevent such writes (`C113_violated`). -/
theorem C113_delaunay_partial (N a : Nat) (hD : D < 64) (hs : Scene D pts S₀)
    (hq : SettingOk depth cutoff sp big tiny pts cs S₀) (ht : Tie pts h S₀) (hb : BaseOk pts h base S₀)
    (h0 : 0 ∉ S₀) (hcut : 3 ≤ cutoff) (T : Tri)
    (hT : Triangulate (params hash depth cutoff parEdge base sp big tiny pts cs) N (Timely D N a) 1 S₀ T) :
    Delaunay D pts S₀ T := by
  have := refines (fun P n Ts meets s hn hok hx => C113_partial D a n hD hn Ts meets hok s hx.1 hx.2)
    hD (hs.world ht) (hq.params hs ht hb) h0 hcut 1 S₀ T hT le_rfl hs.inf (Finset.Subset.refl _)
  exact C52_delaunay hs hq ht hb this

/-- **C113 (partial): the whole algorithm.** The same for one thread, without a condition on the executions. -/
theorem C113_delaunay_one_thread_partial (a : Nat) (hD : D < 64) (hs : Scene D pts S₀)
    (hq : SettingOk depth cutoff sp big tiny pts cs S₀) (ht : Tie pts h S₀) (hb : BaseOk pts h base S₀)
    (h0 : 0 ∉ S₀) (hcut : 3 ≤ cutoff) (T : Tri)
    (hT : Triangulate (params hash depth cutoff parEdge base sp big tiny pts cs) 1 (fun _ n => Extracts D 1 a n) 1 S₀ T) :
    Delaunay D pts S₀ T := by
  have := refines (fun P n Ts meets s hn hok hx => C113_one_thread_partial D a n hD hn Ts meets hok s hx)
    hD (hs.world ht) (hq.params hs ht hb) h0 hcut 1 S₀ T hT le_rfl hs.inf (Finset.Subset.refl _)
  exact C52_delaunay hs hq ht hb this

end
end Edges
end Verif
