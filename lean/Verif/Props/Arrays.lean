import Verif.Lemmas.MachineLen

/-!
# C96: the arrays of the adaptive tests are large enough

Whatever the arithmetic of the machine does and whatever the arguments are, the four tests write all components of all expansions within the
declared arrays, and they never use an array that has not been initialised.
-/
namespace Verif
open FPM

/-- The orientation test in the plane. -/
theorem C96_orient2 (rd : ℚ → ℚ) (k : FP.Consts) (pa pb pc : ℚ × ℚ) : ∃ v, orient2 rd k pa pb pc = .done v := by
  obtain ⟨v, h, -⟩ := orient2_ok rd k pa pb pc
  exact ⟨v, h⟩

/-- The incircle test in the plane. -/
theorem C96_insphere2 (rd : ℚ → ℚ) (k : FP.Consts) (pa pb pc pd : ℚ × ℚ) : ∃ v, insphere2 rd k pa pb pc pd = .done v := by
  obtain ⟨v, h, -⟩ := insphere2_ok rd k pa pb pc pd
  exact ⟨v, h⟩

/-- The orientation test in space. -/
theorem C96_orient3 (rd : ℚ → ℚ) (k : FP.Consts) (pa pb pc pd : ℚ × ℚ × ℚ) : ∃ v, orient3 rd k pa pb pc pd = .done v := by
  obtain ⟨v, h, -⟩ := orient3_ok rd k pa pb pc pd
  exact ⟨v, h⟩

/-- The insphere test in space. -/
theorem C96_insphere3 (rd : ℚ → ℚ) (k : FP.Consts) (pa pb pc pd pe : ℚ × ℚ × ℚ) : ∃ v, insphere3 rd k pa pb pc pd pe = .done v := by
  obtain ⟨v, h, -⟩ := insphere3_ok rd k pa pb pc pd pe
  exact ⟨v, h⟩

/-- The array for the result of an addition has to have room for all components of both arguments: four components do not fit into three
elements. -/
example : fesTo (FP.rnd 4) 3 [1, 64] [1 / 64, 4096] = .ub ∧ fesTo (FP.rnd 4) 4 [1, 64] [1 / 64, 4096] = .done [1 / 64, 1, 64, 4096] := by
  decide +kernel

/-- An array that has not been initialised. -/
example : fesTo (FP.rnd 4) 8 [] [1] = .ub := by decide +kernel

/-- A call of the exact stage. -/
example : exact3 (FP.rnd 4) 5 (1, 0, 1 / 64) (0, 64, 0) (0, 1 / 64, 1) (64, 1 / 64, 1) (1 / 16, 0, 0) =
    .done [1 / 16384, 1 / 64, -1 / 16, -1 / 4, -1, 16, -3840, 245760] := by
  decide +kernel

/-- Every call, also with an arithmetic that has nothing to do with rounding. -/
example : ∃ v, insphere3 (fun x => x + 1) ⟨1, 1, 1, 1, 1, 1, 1, 1, 1, 1, 1, 1, 1, 1, 1⟩ (1, 0, 0) (0, 1, 0) (0, 0, 1) (1, 1, 1) (2, 0, 0) = .done v :=
  C96_insphere3 _ _ _ _ _ _ _

end Verif
