import Verif.Model.Container
import Verif.Props.MakeIds

/-!
# C140, C141: the containers of points
-/
namespace Verif
namespace PointId

/-- `l` lists the finite ids of the container. -/
def ListsFinite {α : Type} (D : Nat) (c : Cont α) (l : List (BitVec 64)) : Prop :=
  l.Nodup ∧ ∀ i, i ∈ l ↔ isFinite D i = true ∧ contains D c.points i = true

/-- The finite ids of a container whose ids do not run into the infinite ones. -/
theorem listsFinite {α : Type} {D : Nat} (hD : D < 31) (c : Cont α)
    (h : c.offset.toNat + c.vec.length ≤ 2 ^ 64 - 2 ^ D) :
    ListsFinite D c (finiteIds c.points) ∧ (finiteIds c.points).length = c.vec.length - 1 := by
  have hpos : 0 < 2 ^ D := Nat.two_pow_pos D
  have hlen : (BitVec.ofNat 64 c.vec.length).toNat = c.vec.length := by
    rw [BitVec.toNat_ofNat, Nat.mod_eq_of_lt]; omega
  have hb : c.points.offset.toNat + c.points.finiteSize.toNat ≤ 2 ^ 64 := by
    show c.offset.toNat + (BitVec.ofNat 64 c.vec.length).toNat ≤ 2 ^ 64
    rw [hlen]; omega
  refine ⟨⟨finiteIds_nodup, fun i => ?_⟩, ?_⟩
  · rw [mem_finiteIds hb]
    constructor
    · intro hi
      have hf : isFinite D i = true := by
        by_contra hf
        have hf' : isFinite D i = false := by simpa using hf
        rw [C34_isFinite D hD] at hf'
        have h2 : c.points.offset.toNat + c.points.finiteSize.toNat = c.offset.toNat + c.vec.length := by
          show c.offset.toNat + (BitVec.ofNat 64 c.vec.length).toNat = _
          rw [hlen]
        omega
      exact ⟨hf, (C34_contains_finite D c.points i hf).mpr hi⟩
    · rintro ⟨hf, hc⟩
      exact (C34_contains_finite D c.points i hf).mp hc
  · simp only [finiteIds, List.length_map, List.length_range']
    show (BitVec.ofNat 64 c.vec.length).toNat - 1 = _
    rw [hlen]

/-- **C140 (violated).** The report always counts one point too many: for every container with the entry 0 there is a list
of the ids of its points that is shorter by one than the reported number. -/
theorem C140_numpoints_violated {α : Type} {D : Nat} (hD : D < 31) (c : Cont α) (h1 : 1 ≤ c.vec.length)
    (h : c.offset.toNat + c.vec.length ≤ 2 ^ 64 - 2 ^ D) :
    ∃ l, ListsFinite D c l ∧ numpoints c = l.length + 1 := by
  obtain ⟨h2, h3⟩ := listsFinite hD c h
  exact ⟨_, h2, by rw [h3]; unfold numpoints; omega⟩

/-- **C140 (partial).** Generating `n` points and loading a file with `n` lines give containers with exactly `n` points.
What is missing: the report counts `n + 1` of them (`C140_numpoints_violated`). -/
theorem C140_generated_partial {α : Type} {D : Nat} (hD : D < 31) (max : Nat) (z : α) (n : BitVec 64)
    (hmax : n.toNat + 1 ≤ max) (h : n.toNat + 1 ≤ 2 ^ 64 - 2 ^ D) :
    ∃ c l, generated max z n = .done c ∧ ListsFinite D c l ∧ l.length = n.toNat := by
  have hpos : 0 < 2 ^ D := Nat.two_pow_pos D
  have hn : (n + 1#64 - 0#64).toNat = n.toNat + 1 := by
    rw [BitVec.sub_zero, BitVec.toNat_add]
    have : (1#64).toNat = 1 := rfl
    rw [this, Nat.mod_eq_of_lt]; omega
  have key : ∃ c : Cont α, generated max z n = .done c ∧ c.offset = 0#64 ∧ c.vec.length = n.toNat + 1 := by
    unfold generated reserveUpToIdx newPoints
    simp only [hn]
    by_cases h0 : n.toNat + 1 > 1
    · rw [if_pos (Or.inr (by simpa using h0))]
      unfold resize
      rw [if_pos hmax]
      refine ⟨_, rfl, rfl, ?_⟩
      simp only [List.length_append, List.length_take, List.length_replicate, List.length_cons, List.length_nil]
      omega
    · rw [if_neg (by simp; omega)]
      exact ⟨_, rfl, rfl, by simp; omega⟩
  obtain ⟨c, hc, ho, hl⟩ := key
  obtain ⟨h2, h3⟩ := listsFinite hD c (by rw [ho, hl]; show 0 + _ ≤ _; omega)
  exact ⟨c, _, hc, h2, by rw [h3, hl]; omega⟩

theorem C140_loaded_partial {α : Type} {D : Nat} (hD : D < 31) (z : α) (lines : List α)
    (h : lines.length + 1 ≤ 2 ^ 64 - 2 ^ D) :
    ∃ l, ListsFinite D (loaded z lines) l ∧ l.length = lines.length ∧
      ∀ k (hk : k < lines.length), (loaded z lines).vec[k + 1]? = some lines[k] := by
  have hl : (loaded z lines).vec.length = lines.length + 1 := by simp [loaded, newPoints]
  have ho : (loaded z lines).offset = 0#64 := rfl
  obtain ⟨h2, h3⟩ := listsFinite hD (loaded z lines) (by rw [ho, hl]; show 0 + _ ≤ _; omega)
  refine ⟨_, h2, by rw [h3, hl]; omega, fun k hk => ?_⟩
  simp [loaded, newPoints, hk]

/-- **C140.** Reserving up to an index keeps all elements and makes every id from the offset up to the index accessible. -/
theorem C140_reserve {α : Type} (max : Nat) (z : α) (c : Cont α) (size : BitVec 64)
    (ho : c.offset.toNat ≤ size.toNat) (hmax : size.toNat - c.offset.toNat ≤ max) :
    ∃ c', reserveUpToIdx max z c size = .done c' ∧ c'.offset = c.offset ∧
      (∀ k, k < c.vec.length → c'.vec[k]? = c.vec[k]?) ∧
      ∀ i : BitVec 64, c.offset.toNat ≤ i.toNat → i.toNat < size.toNat → i.toNat - c.offset.toNat < c'.vec.length := by
  have hn : (size - c.offset).toNat = size.toNat - c.offset.toNat :=
    BitVec.toNat_sub_of_le (by rw [BitVec.le_def]; exact ho)
  unfold reserveUpToIdx
  simp only [hn]
  by_cases h : c.vec.length = 0 ∨ size.toNat - c.offset.toNat > c.vec.length
  · rw [if_pos h]
    unfold resize
    rw [if_pos hmax]
    refine ⟨_, rfl, rfl, ?_, ?_⟩
    · intro k hk
      have hlt : c.vec.length ≤ size.toNat - c.offset.toNat := by omega
      simp only [List.take_of_length_le hlt]
      rw [List.getElem?_append_left hk]
    · intro i h1 h2
      simp only [List.length_append, List.length_take, List.length_replicate]
      omega
  · rw [if_neg h]
    refine ⟨c, rfl, rfl, fun _ _ => rfl, fun i h1 h2 => by omega⟩

/-- The hypotheses hold: five points in the plane, and reserving up to 12 in a container with offset 10. -/
example : (5#64).toNat + 1 ≤ 100 ∧ (5#64).toNat + 1 ≤ 2 ^ 64 - 2 ^ 2 ∧
    generated 100 (0 : Nat) 5#64 = .done ⟨0#64, [0, 0, 0, 0, 0, 0]⟩ ∧
    reserveUpToIdx 100 (0 : Nat) ⟨10#64, [7]⟩ 12#64 = .done ⟨10#64, [7, 0]⟩ := by
  decide +kernel

/-- **C140 (violated).** Reserving up to an index below the offset asks for a vector of almost 2^64 elements. -/
theorem C140_below_violated :
    ∀ max < 2 ^ 64 - 1, reserveUpToIdx max (0 : Nat) ⟨10#64, [7]⟩ 9#64 = .ub := by
  intro max hmax
  unfold reserveUpToIdx resize
  have hn : ((9#64) - (10#64)).toNat = 2 ^ 64 - 1 := by decide
  simp only [hn]
  rw [if_pos (Or.inr (by simp)), if_neg (by omega)]
  rfl

/-- **C141 (violated).** The older container claims to contain every finite id as soon as it has two elements, whether
it can be accessed or not. -/
theorem C141_contains_violated :
    (∀ (α : Type) (D : Nat) (c : Cont α) (i : BitVec 64), 2 ≤ c.vec.length → c.vec.length < 2 ^ 64 →
      isFinite D i = true → oldContains D c i = true) ∧
      oldAt 2 (⟨0#64, [10, 11, 12, 13, 14, 15]⟩ : Cont Nat) 100#64 = .ub := by
  refine ⟨?_, by decide +kernel⟩
  intro α D c i h2 h64 hf
  unfold oldContains
  have hlen : (BitVec.ofNat 64 c.vec.length).toNat = c.vec.length := by
    rw [BitVec.toNat_ofNat, Nat.mod_eq_of_lt h64]
  simp only [hf, if_true, decide_eq_true_eq, BitVec.lt_def, hlen]
  split_ifs
  · show 1 < c.vec.length; omega
  · show 0 < c.vec.length; omega

/-- **C141 (partial).** With the infinite elements present, every infinite id is contained and accessible, and different
infinite ids have different elements, the last ones of the vector. What is missing: the finite ids
(`C141_contains_violated`). -/
theorem C141_infinite_partial {α : Type} {D : Nat} (hD : D < 31) (c : Cont α) (i : BitVec 64)
    (h : 2 ^ D ≤ c.vec.length) (h64 : c.vec.length < 2 ^ 64) (hi : isFinite D i = false) :
    oldContains D c i = true ∧
      ∃ (hk : c.vec.length - (2 ^ 64 - i.toNat) < c.vec.length),
        oldAt D c i = .done (c.vec[c.vec.length - (2 ^ 64 - i.toNat)]'hk) := by
  obtain ⟨e1, e2, e3⟩ := C34_infIndex D hD i hi
  have hi' := (C34_isFinite D hD i).mp hi
  have hlt := i.isLt
  have hlen : (BitVec.ofNat 64 c.vec.length).toNat = c.vec.length := by
    rw [BitVec.toNat_ofNat, Nat.mod_eq_of_lt h64]
  have hidx : (oldInfIdx D c i).toNat = c.vec.length - (2 ^ 64 - i.toNat) := by
    unfold oldInfIdx
    rw [BitVec.toNat_add, BitVec.toNat_sub_of_le (by rw [BitVec.le_def, hlen, e3]; exact h), hlen, e3,
      Nat.mod_eq_of_lt (by omega)]
    omega
  have hk : c.vec.length - (2 ^ 64 - i.toNat) < c.vec.length := by
    have : 0 < 2 ^ D := Nat.two_pow_pos D
    omega
  refine ⟨?_, hk, ?_⟩
  · unfold oldContains
    simp only [hi, Bool.false_eq_true, if_false, decide_eq_true_eq, BitVec.lt_def, hlen, hidx]
    exact hk
  · unfold oldAt
    simp only [hi, Bool.false_eq_true, if_false, hidx, List.getElem?_eq_getElem hk]

/-- The hypotheses hold for six elements in the plane and the last id. -/
example : 2 ^ 2 ≤ ([10, 11, 12, 13, 14, 15] : List Nat).length ∧ isFinite 2 (-1#64) = false ∧
    oldAt 2 (⟨0#64, [10, 11, 12, 13, 14, 15]⟩ : Cont Nat) (-1#64) = .done 15 := by
  decide +kernel

end PointId
end Verif
