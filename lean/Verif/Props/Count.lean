import Verif.Props.BlockedArray2
import Verif.Props.Collect

/-!
# C120: the reported number of simplices

`nS` of the benchmark program and `simplices` of the reports are `exact_size()`, the number of slots.
-/
namespace Verif
namespace Count
open BA2

variable {α : Type}

/-- **C120, partial.** `exact_size` is at least the number of simplices an iteration visits. It is this number exactly if
there is no slot without a simplex, which is the case if nothing was deleted and no id was left out. -/
theorem C120_slots_partial {dflt : α} {bs : List (Block α)} {f : Nat → Option α} (h : Built false dflt bs f)
    (valid : α → Bool) (l : List (Nat × α)) (hl : Returns (iterValid bs valid) l) :
    l.length ≤ exactSize bs ∧ (l.length = exactSize bs ↔ ∀ i v, f i = some v → valid v = true) := by
  obtain ⟨a, ha, ha1, ha2⟩ := C26_all h
  obtain ⟨l', h1, h2, h3⟩ := C26_valid h valid
  obtain rfl := h1.unique hl
  rw [C26_exact_size h a ha]
  have hn : ∀ {l : List (Nat × α)}, l.Pairwise (fun a b => a.1 < b.1) → l.Nodup := fun hp =>
    hp.imp fun {a b} hab he => by rw [he] at hab; exact lt_irrefl _ hab
  have hsub : l'.Subperm a := (hn h2).subperm fun x hx => (ha2 x.1 x.2).2 ((h3 x.1 x.2).1 hx).1
  refine ⟨hsub.length_le, fun he i v hv => ?_, fun hv => ?_⟩
  · have hp : l'.Perm a := hsub.perm_of_length_le he.ge
    exact ((h3 i v).1 (hp.mem_iff.2 ((ha2 i v).2 hv))).2
  · have hp : a.Subperm l' := (hn ha1).subperm fun x hx => (h3 x.1 x.2).2
      ⟨(ha2 x.1 x.2).1 hx, hv _ _ ((ha2 x.1 x.2).1 hx)⟩
    exact le_antisymm hsub.length_le hp.length_le

/-- **C120 is violated** by the plain CGAL triangulators: they return a single empty slot, whatever the points are, so that
the report says that there is one simplex. (src/lib/CGALTriangulator.cpp:499-500) -/
theorem C120_pure_violated (dflt : α) (valid : α → Bool) (hd : valid dflt = false) :
    exactSize [Block.new dflt 0 1] = 1 ∧ Returns (iterValid [Block.new dflt 0 1] valid) [] := by
  refine ⟨rfl, ?_⟩
  obtain ⟨l, h1, -, h3⟩ := C26_valid (Built.new (allowEmpty := false) (dflt := dflt) 0 1 (Or.inl (by omega))) valid
  have hl : l = [] := List.eq_nil_iff_forall_not_mem.2 fun ⟨i, v⟩ hm => by
    obtain ⟨hf, hv⟩ := (h3 i v).1 hm
    split at hf
    · rw [← Option.some.inj hf, hd] at hv
      cases hv
    · cases hf
  rw [hl] at h1
  exact h1

/-- The hypotheses hold for two simplices with a slot without simplex in between. -/
example : ∃ (bs : List (Block Bool)) (f : Nat → Option Bool) (l : List (Nat × Bool)), Built false false bs f ∧
    Returns (iterValid bs id) l ∧ l.length = 2 ∧ exactSize bs = 3 := by
  have h1 : Built false false [Block.new false 4 7] _ := Built.new 4 7 (Or.inl (by decide))
  have h2 := Built.write _ [⟨4, 7, [true, false, false]⟩] _ 4 0 true h1 (by decide) (by decide +kernel)
  have h3 := Built.write _ [⟨4, 7, [true, false, true]⟩] _ 6 0 true h2 (by decide) (by decide +kernel)
  have hl' : Returns (iterValid [⟨4, 7, [true, false, true]⟩] id) [(4, true), (6, true)] := 
    ⟨20, fun m hm => by obtain ⟨k, rfl⟩ := Nat.exists_eq_add_of_le' hm; rfl⟩
  exact ⟨_, _, _, h3, hl', rfl, rfl⟩

end Count

namespace DC
variable {K : Type} [Field K] [LinearOrder K] [IsStrictOrderedRing K] {W : Type} [AddCommGroup W] [Module K W] [Module.Finite K W]
variable {D start lastId : Nat} {x : Nat → W} {h : Nat → K} {S : Finset Nat} {cells : List Cell}

/-- **C120 is violated** by every triangulation of the base triangulator: the infinite cells of CGAL have ids as well, so
that there are more slots than simplices. -/
theorem C120_base_violated (hD : D < 32768) (hb : start + lastId < 2 ^ 64) (hc : CgalOk D x h S lastId cells)
    {m : Nat} (hm : m < lastId) (hinf : ∀ c ∈ cells, c.mid ≠ m) :
    ∃ T, collect D start lastId cells = some T ∧ T.range.card = lastId ∧
      (T.range.filter fun i => T.contains i = true).card = cells.length ∧ cells.length < T.range.card := by
  obtain ⟨T, hT, hdt, -, -, hr⟩ := C78_collect hD hb hc
  have hcard : T.range.card = lastId := by
    have : T.range = Finset.Ico start (start + lastId) := by
      ext i
      rw [hr, Finset.mem_Ico]
    rw [this, Nat.card_Ico]
    omega
  refine ⟨T, hT, hcard, ?_, ?_⟩
  · have hnd : cells.Nodup := List.Nodup.of_map _ hc.inj
    rw [← List.toFinset_card_of_nodup hnd]
    have hset : (T.range.filter fun i => T.contains i = true).image (fun i => (T.vs i).toFinset) =
        cells.toFinset.image fun c => c.vs.toFinset := by
      ext t
      simp only [Finset.mem_image, Finset.mem_filter, List.mem_toFinset]
      constructor
      · rintro ⟨i, ⟨-, hi⟩, rfl⟩
        exact (hc.del _).1 (hdt.sound i hi)
      · intro ht
        obtain ⟨i, hi, he⟩ := hdt.complete t ((hc.del t).2 ht)
        exact ⟨i, ⟨((Tri.contains_iff).1 hi).1, hi⟩, he⟩
    rw [← Finset.card_image_of_injOn (f := fun i => (T.vs i).toFinset) (s := T.range.filter fun i => T.contains i = true), hset,
      Finset.card_image_of_injOn]
    · intro c hcm c' hcm' he
      exact hc.once c (List.mem_toFinset.1 hcm) c' (List.mem_toFinset.1 hcm') he
    · intro i hi j hj he
      exact hdt.unique i j (Finset.mem_filter.1 hi).2 (Finset.mem_filter.1 hj).2 he
  · rw [hcard]
    have hsub : (cells.map (·.mid)).toFinset ⊆ (Finset.range lastId).erase m := by
      intro k hk
      obtain ⟨c, hcm, rfl⟩ := List.mem_map.1 (List.mem_toFinset.1 hk)
      exact Finset.mem_erase.2 ⟨hinf c hcm, Finset.mem_range.2 (hc.ids c hcm)⟩
    have := Finset.card_le_card hsub
    rw [List.toFinset_card_of_nodup hc.inj, List.length_map, Finset.card_erase_of_mem (Finset.mem_range.2 hm),
      Finset.card_range] at this
    omega

open Del Euc in
/-- The hypotheses hold for the sample of C52, if CGAL numbers a cell more than the finite ones. -/
example : ∃ (h : Nat → ℝ) (cells : List Cell) (T : Tri), CgalOk 2
      (fun i => hom (ctorPoints 100 1000000 (1 / 1000) samplePts [[4, 2], [], [1, 3]] i)) h
      ({1, 2, 3, 4} ∪ infPts 2) 257 cells ∧ (∀ c ∈ cells, c.mid ≠ 256) ∧ collect 2 1 257 cells = some T ∧
      T.range.card = 257 ∧ cells.length < T.range.card := by
  have hs := sampleInput.scene (by omega) sampleFar sampleInj
  obtain ⟨h, ht⟩ := Tie.exists hs.distinct
  obtain ⟨cells, hc⟩ := CgalOk.exists (D := 2) finrank_hom
    (fun i => hom (ctorPoints 100 1000000 (1 / 1000) samplePts [[4, 2], [], [1, 3]] i)) h ({1, 2, 3, 4} ∪ infPts 2)
  have hcard : (({1, 2, 3, 4} : Finset Nat) ∪ infPts 2).card = 8 := by decide
  rw [hcard] at hc
  have hid : ∀ c ∈ cells, c.mid < 256 := fun c hcm => by simpa using hc.ids c hcm
  have hc' : CgalOk 2 (fun i => hom (ctorPoints 100 1000000 (1 / 1000) samplePts [[4, 2], [], [1, 3]] i)) h
      ({1, 2, 3, 4} ∪ infPts 2) 257 cells :=
    ⟨hc.len, hc.nodup, fun c hcm => by have := hid c hcm; omega, hc.inj, hc.del, hc.once, hc.nbr⟩
  have hne : ∀ c ∈ cells, c.mid ≠ 256 := fun c hcm => (hid c hcm).ne
  obtain ⟨T, h1, h2, -, h4⟩ := C120_base_violated (start := 1) (by omega) (by norm_num) hc' (by omega) hne
  exact ⟨h, cells, T, hc', hne, h1, h2, h4⟩

end DC
end Verif
