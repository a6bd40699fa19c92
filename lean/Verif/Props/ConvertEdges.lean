import Verif.Model.ConvertEdges
import Verif.Lemmas.GrowingItems
import Verif.Lemmas.LpSet
import Verif.Props.EdgeLoop

/-!
# C146: the sets of the edge that are handed on
-/
namespace Verif
namespace Convert
open Conc

/-- The sequential set that is made of a growing set after a timely execution. -/
theorem growing_wf {n a sz m : Nat} (hs : 0 < sz) {c : Config n Growing.Shared Growing.Loc Growing.Op ConcSet.SetRet}
    (h : Growing.ReachTimely (Growing.new a sz m) c) (hq : ∀ t, c.th t = none) :
    ∃ tb, c.sh.tabs[c.sh.tr]? = some tb ∧ (toSeq true tb.t).WF := by
  have hCI := Growing.timely_CI hs h
  have htr := hCI.g.tr_lt
  have hit := Growing.timely_items hs h hq htr
  obtain ⟨hmu, hpow, hpath⟩ := hCI.g.tab _ htr
  unfold Growing.mu at hmu
  unfold Growing.itm at hit
  unfold Growing.ar at hpow hpath hit
  rw [List.getElem?_eq_getElem htr] at hmu hpow hpath hit
  refine ⟨_, List.getElem?_eq_getElem htr, hpow, ?_, hit⟩
  show PathOk (hash64 (c.sh.tabs[c.sh.tr]).t.a) _
  rw [show (c.sh.tabs[c.sh.tr]).t.a = a from hmu]
  exact hpath

/-- What a set that is handed on has to do, if the ids with `p` are to be in it. -/
def Right (S : LpSet) (p : Nat → Prop) : Prop :=
  (∃ K : Finset Nat, K.card = S.size ∧ ∀ x, x ∈ K ↔ p x) ∧
  ∀ x, x ≠ 0 → (S.size < S.capacity ∨ p x) → ∃ b, Returns (fun f => S.contains f x) b ∧ (b = true ↔ p x)

theorem right_of {S : LpSet} (hw : S.WF) {p : Nat → Prop} (hp : ∀ x, x ∈ S.arr.filter (fun x => decide (x ≠ 0)) ↔ p x) : Right S p := by
  have hk : ∀ x, x ∈ S.keys ↔ p x := by
    intro x
    rw [LpSet.mem_keys, ← hp x, List.mem_filter, decide_eq_true_iff]
    exact and_comm
  refine ⟨⟨S.keys, hw.items_eq.symm, hk⟩, fun x hx hf => ⟨_, LpSet.contains_spec hw hx ?_, ?_⟩⟩
  · rcases hf with hf | hf
    · exact .inl (hw.free (by rw [← hw.items_eq]; exact hf))
    · exact .inr (LpSet.mem_keys.1 ((hk x).2 hf)).2
  · rw [decide_eq_true_iff]
    exact hk x

/-- **C146 (partial).** Any number of threads extract the edges of parts of at least four points whose marks are in order, without
a late write. Then the set of ids that the merge gets has the number of edge simplices as its size and answers queries with whether
the id is that of an edge simplex, and the set of ids that is triangulated as the edge does the same for the vertices of the edge
simplices and the infinite points, if the sets are not full.
Missing: after a late write vertices are not in the set (`C146_violated`). -/
theorem C146_partial {N P : Nat} (D a n : Nat) (hD : D < 64) (hn : 4 ≤ n) (Ts : Fin P → DC.Tri) (meets : Fin P → Nat → Bool)
    (hT : ∀ i, (Ts i).Wf ∧ ∀ x, (Ts i).contains x = true → x ≠ 0 ∧ ∀ v ∈ (Ts i).vs x, v ≠ 0)
    (hm : ∀ i, (Ts i).MarksOk ∧ (Ts i).mark + 2 < 256) (hP : 0 < P) (s : Edges.Loop N P)
    (hs : Relation.ReflTransGen (Edges.TimelyStep D Ts meets) (Edges.Loop.init a n Ts) s) (hf : s.final) :
    (∃ S, edgeSet s false = some S ∧ Right S fun x => ∃ i, DC.EdgeSpec (Ts i) (meets i) x) ∧
    ∃ S, edgeSet s true = some S ∧
      Right S fun v => v ∈ Part.infIds D ∨ ∃ i x, DC.EdgeSpec (Ts i) (meets i) x ∧ v ∈ (Ts i).vs x := by
  obtain ⟨⟨e, h1⟩, h2⟩ := Edges.timely_steps hD hT Edges.EInv.init (fun _ => .init) hs
  have hspec := Edges.C113_spec_partial D a n hD hn Ts meets hT hm hP s hs hf
  have key : ∀ j p, (∀ x, x ∈ s.ids j ↔ p x) → ∃ S, edgeSet s j = some S ∧ Right S p := by
    intro j p hp
    have hsz : 0 < Edges.capacity n j := by
      cases j <;> simp only [Edges.capacity] <;> omega
    have hq : ∀ t, (s.c j).th t = none := by
      intro t
      cases hA : (s.c j).th t with
      | none => rfl
      | some A =>
        have := (h1.th j t A hA).1
        rw [(hf.2 t).1] at this
        cases this
    obtain ⟨tb, htb, hw⟩ := growing_wf hsz (h2 j) hq
    refine ⟨toSeq true tb.t, by unfold edgeSet; rw [htb]; rfl, right_of hw fun x => ?_⟩
    rw [← hp x]
    unfold Edges.Loop.ids
    rw [htb]
    rfl
  exact ⟨key false _ hspec.1, key true _ hspec.2⟩

theorem contains_mem {k : Nat} {arr : List Nat} : ∀ {f idx : Nat}, LpSet.containsLoop k arr f idx = .done true → k ∈ arr
  | 0, _, h => by cases h
  | f + 1, idx, h => by
    simp only [LpSet.containsLoop] at h
    split at h
    · cases h
    · rename_i x hx
      split at h
      · rename_i e
        subst e
        exact List.mem_of_getElem? hx
      · split at h
        · cases h
        · exact contains_mem h

/-- **C146 is violated after a late write.** Two threads extract the edges of two parts; at the end simplex 2 is an edge simplex, but
the query for its vertex 4 of the set that is triangulated does not return true. -/
theorem C146_violated : ∃ s : Edges.Loop 2 2, Edges.Extracts 2 2 1 64 Edges.strips (fun _ _ => true) s ∧
    DC.EdgeSpec (Edges.strips 0) (fun _ => true) 2 ∧ 4 ∈ (Edges.strips 0).vs 2 ∧
    ∀ S, edgeSet s true = some S → ¬ Returns (fun f => S.contains f 4) true := by
  obtain ⟨s, h1, h2, _, h4, h5⟩ := Edges.C113_violated
  refine ⟨s, h1, h2, h4, fun S hS hr => h5 ?_⟩
  obtain ⟨m, hr⟩ := hr
  have hm := contains_mem (hr m (Nat.le_refl _))
  unfold edgeSet at hS
  unfold Edges.Loop.ids
  cases htb : (s.c true).sh.tabs[(s.c true).sh.tr]? with
  | none => rw [htb] at hS; cases hS
  | some tb =>
    rw [htb] at hS
    injection hS with hS
    subst hS
    exact List.mem_filter.2 ⟨hm, by decide⟩

/-- The hypotheses are met: two threads, two parts with two triangles each, and the set of the points grows three times. -/
example : ∃ s : Edges.Loop 2 2,
    Relation.ReflTransGen (Edges.TimelyStep 2 Edges.strips fun _ _ => true) (Edges.Loop.init 1 16 Edges.strips) s ∧ s.final ∧
    (s.c true).sh.tabs.length = 4 ∧ s.ids false = [1, 2, 3, 4] := by
  have h : ((Edges.Loop.init 1 16 Edges.strips : Edges.Loop 2 2).runT 2 Edges.strips (fun _ _ => true)
      (List.replicate 300 [0, 1]).flatten).bind Edges.outcome =
      some (([1, 2, 3, 4], 1), ([1, 2, 3, 4, 5, 6, 7, 8] ++ Part.infIds 2, 4)) := by
    decide +kernel
  obtain ⟨s, h1, h2⟩ := Option.bind_eq_some_iff.1 h
  obtain ⟨h3, h4⟩ := Edges.outcome_final h2
  simp only [Prod.mk.injEq] at h4
  exact ⟨s, Edges.Loop.runT_steps h1, h3, h4.2.2.symm, h4.1.1.symm⟩

end Convert
end Verif
