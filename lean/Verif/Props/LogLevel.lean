import Verif.Model.LogLevel
import Mathlib.Tactic.Linarith

/-!
# C138: the requested verbosity decides which lines of the log are shown
-/
namespace Verif
namespace LogLevel

/-- The lines that somebody who asks for verbosity `v` wants to see: in their order, those of level at most `|v|`; in
a program without debugging there are no calls of `PLOG`. -/
def wanted (ndebug : Bool) (v : Int) : List Line → List Char
  | [] => []
  | l :: ls =>
    (if l.k ≤ |v| ∧ ¬ (l.viaMacro = true ∧ l.k = 3 ∧ ndebug = true) then l.text else []) ++ wanted ndebug v ls

theorem toShort_id {v : Int} (h : |v| < 32768) : toShort v = v := by
  have := abs_lt.mp h
  unfold toShort
  omega

theorem vabs_id {v : Int} (h : |v| < 32768) : vabs v = |v| := by
  have h' : |(|v|)| < 32768 := by rwa [abs_abs]
  exact toShort_id h'

theorem fold_live (nd : Bool) (v : Int) (h : |v| < 32768) (hv : v ≤ -1) :
    ∀ (ls : List Line) (s : St), s.level = v →
      (ls.foldl (call nd) s).level = v ∧ (ls.foldl (call nd) s).out = s.out ++ wanted nd v ls := by
  intro ls
  induction ls with
  | nil => intro s hs; simp [hs, wanted]
  | cons l ls ih =>
    intro s hs
    have hstep : (call nd s l).level = v ∧ (call nd s l).out = s.out ++
        (if l.k ≤ |v| ∧ ¬ (l.viaMacro = true ∧ l.k = 3 ∧ nd = true) then l.text else []) := by
      unfold call addEntry
      rw [hs, vabs_id h]
      by_cases h1 : l.viaMacro = true ∧ l.k = 3 ∧ nd = true
      · simp [h1, hs]
      · have h2 : (l.viaMacro && l.k == 3 && nd) = false := by
          rw [Bool.eq_false_iff]
          intro h3
          simp only [Bool.and_eq_true, beq_iff_eq] at h3
          exact h1 ⟨h3.1.1, h3.1.2, h3.2⟩
        rw [h2]
        by_cases h4 : l.k ≤ |v| <;> simp [h4, h1, hv, hs]
    obtain ⟨e1, e2⟩ := ih _ hstep.1
    refine ⟨e1, ?_⟩
    rw [List.foldl_cons, e2, hstep.2, wanted, List.append_assoc]

theorem fold_kept (nd : Bool) (v : Int) (h : |v| < 32768) (hv : 0 ≤ v) :
    ∀ (ls : List Line) (s : St), s.level = v →
      (ls.foldl (call nd) s).level = v ∧ (ls.foldl (call nd) s).out = s.out ∧
        ((ls.foldl (call nd) s).entries.filter (fun e => decide (e.1 ≤ v))).flatMap Prod.snd =
          (s.entries.filter (fun e => decide (e.1 ≤ v))).flatMap Prod.snd ++ wanted nd v ls := by
  intro ls
  induction ls with
  | nil => intro s hs; simp [hs, wanted]
  | cons l ls ih =>
    intro s hs
    have hstep : (call nd s l).level = v ∧ (call nd s l).out = s.out ∧
        ((call nd s l).entries.filter (fun e => decide (e.1 ≤ v))).flatMap Prod.snd =
          (s.entries.filter (fun e => decide (e.1 ≤ v))).flatMap Prod.snd ++
        (if l.k ≤ |v| ∧ ¬ (l.viaMacro = true ∧ l.k = 3 ∧ nd = true) then l.text else []) := by
      unfold call addEntry
      rw [hs, vabs_id h]
      by_cases h1 : l.viaMacro = true ∧ l.k = 3 ∧ nd = true
      · simp [h1, hs]
      · have h2 : (l.viaMacro && l.k == 3 && nd) = false := by
          rw [Bool.eq_false_iff]
          intro h3
          simp only [Bool.and_eq_true, beq_iff_eq] at h3
          exact h1 ⟨h3.1.1, h3.1.2, h3.2⟩
        have h5 : ¬ v ≤ -1 := by omega
        have h6 : |v| = v := abs_of_nonneg hv
        rw [h2]
        by_cases h4 : l.k ≤ v <;> simp [h4, h1, h5, h6, hs]
    obtain ⟨e1, e2, e3⟩ := ih _ hstep.1
    refine ⟨e1, ?_, ?_⟩
    · rw [List.foldl_cons, e2, hstep.2.1]
    · rw [List.foldl_cons, e3, hstep.2.2, wanted, List.append_assoc]

/-- **C138 (partial).** `DAC_Test` shows every line whose level is at most the requested verbosity once and in the order
of the calls, for the live levels as for the others. What is missing: numbers that are no `short`
(`C138_wrap_violated`), and `LB_Experiments` (`C138_ignored_violated`). -/
theorem C138_dac_partial (nd : Bool) (option : Option Int) (lines : List Line)
    (hv : ∀ v, option = some v → |v| < 32768) (hk : ∀ l ∈ lines, 1 ≤ l.k) :
    dacTest nd option lines = wanted nd (option.getD (-1)) lines := by
  generalize hg : option.getD (-1) = v
  have hb : |v| < 32768 := by
    rcases option with _ | w
    · simp only [Option.getD_none] at hg; subst hg; decide
    · simp only [Option.getD_some] at hg; subst hg; exact hv _ rfl
  unfold dacTest
  rw [hg]
  have hl : (setLevel start v).level = v := toShort_id hb
  simp only
  by_cases hneg : v ≤ -1
  · obtain ⟨e1, e2⟩ := fold_live nd v hb hneg lines _ hl
    rw [e1, if_neg (by omega), e2]
    simp [setLevel, start]
  · obtain ⟨e1, e2, e3⟩ := fold_kept nd v hb (by omega) lines _ hl
    rw [e1]
    by_cases h1 : 1 ≤ v
    · rw [if_pos h1]
      unfold printLog
      rw [if_neg (by omega), e2]
      simp only
      rw [e3]
      simp [setLevel, start]
    · have h0 : v = 0 := by omega
      rw [if_neg h1, e2]
      have : ∀ ls : List Line, (∀ l ∈ ls, 1 ≤ l.k) → wanted nd v ls = [] := by
        intro ls
        induction ls with
        | nil => intro _; rfl
        | cons l ls ih =>
          intro h
          have hl1 := h l (by simp)
          rw [wanted, ih (fun x hx => h x (List.mem_cons_of_mem _ hx)), if_neg]
          · rfl
          · rw [h0]; simp only [abs_zero]; omega
      rw [this lines hk]
      simp [setLevel, start]

/-- The hypotheses hold: three lines, verbosity 2. -/
example :
    (∀ v, some (2 : Int) = some v → |v| < 32768) ∧
      (∀ l ∈ [Line.mk true 1 ['a'], ⟨true, 3, ['b']⟩, ⟨false, 2, ['c']⟩], 1 ≤ l.k) ∧
      dacTest true (some 2) [⟨true, 1, ['a']⟩, ⟨true, 3, ['b']⟩, ⟨false, 2, ['c']⟩] = ['a', 'c'] ∧
      dacTest false (some (-3)) [⟨true, 1, ['a']⟩, ⟨true, 3, ['b']⟩, ⟨false, 2, ['c']⟩] = ['a', 'b', 'c'] ∧
      dacTest false (some 0) [⟨true, 1, ['a']⟩] = [] := by
  refine ⟨?_, ?_, by decide +kernel, by decide +kernel, by decide +kernel⟩
  · intro v h; cases h; decide
  · decide

/-- **C138 (violated).** Verbosities that are no `short` are cut: with 65536 nothing is shown, and with -32768 neither,
because the absolute value is no `short`. -/
theorem C138_wrap_violated :
    (∀ nd, dacTest nd (some 65536) [⟨true, 1, ['a']⟩] ≠ wanted nd 65536 [⟨true, 1, ['a']⟩]) ∧
      ∀ nd, dacTest nd (some (-32768)) [⟨true, 1, ['a']⟩] ≠ wanted nd (-32768) [⟨true, 1, ['a']⟩] := by
  constructor <;> decide +kernel

/-- **C138 (violated).** In `LB_Experiments` the option has no effect at all: whatever is requested, the output is that of a
run without the option; for example the lines of a run that is asked to be silent are shown, and those of a live or
verbose one are not. -/
theorem C138_ignored_violated :
    (∀ nd option valid lines, lbExperiments nd option valid lines = lbExperiments nd none valid lines) ∧
      (∀ nd, lbExperiments nd (some 0) false [⟨true, 1, ['a']⟩] ≠ wanted nd 0 [⟨true, 1, ['a']⟩]) ∧
      (∀ nd, lbExperiments nd (some 2) false [⟨true, 2, ['a']⟩] ≠ wanted nd 2 [⟨true, 2, ['a']⟩]) ∧
      ∀ nd, lbExperiments nd (some (-1)) true [⟨true, 1, ['a']⟩] ≠ wanted nd (-1) [⟨true, 1, ['a']⟩] := by
  refine ⟨fun _ _ _ _ => rfl, ?_, ?_, ?_⟩ <;> decide +kernel

/-- **C138 (partial).** Without the option the log of an invalid run of `LB_Experiments` is complete. -/
theorem C138_invalid_partial (nd : Bool) (lines : List Line) :
    lbExperiments nd none false lines = wanted nd 1 lines := by
  obtain ⟨e1, e2, e3⟩ := fold_kept nd 1 (by decide) (by decide) lines (setLevel start 1) (by decide)
  unfold lbExperiments printLog
  simp only [Bool.false_eq_true, if_false, e1, e2]
  rw [if_neg (by decide)]
  simp only
  rw [e3]
  simp [setLevel, start]

/-- **C138.** The text of a container that is not empty: prefix, if there is one, and elements with the separator between
them. -/
theorem C138_container (pre sep : List Char) (xs : List (List Char)) (h : xs ≠ []) :
    containerText pre sep xs =
      List.intercalate sep ((if pre = [] then [] else [pre]) ++ xs) ++ ['\n'] := by
  have key : ∀ (ys : List (List Char)) (y : List Char),
      y ++ items sep false ys = List.intercalate sep (y :: ys) := by
    intro ys
    induction ys with
    | nil => intro y; simp [items, List.intercalate]
    | cons z zs ih =>
      intro y
      have := ih z
      simp only [items, Bool.false_eq_true, if_false]
      rw [List.append_assoc, this]
      simp [List.intercalate]
  obtain ⟨y, ys, rfl⟩ := List.exists_cons_of_ne_nil h
  unfold containerText
  have hi : items sep true (y :: ys) = List.intercalate sep (y :: ys) := by
    rw [← key]; simp [items]
  rw [hi]
  by_cases hp : pre = []
  · simp [hp]
  · simp [hp, List.intercalate]

/-- Two elements with a prefix, and with an empty container a separator remains at the end. -/
example : containerText ['p'] [' '] [['1'], ['2']] = ['p', ' ', '1', ' ', '2', '\n'] ∧
    containerText ['p'] [' '] [] = ['p', ' ', '\n'] := by
  decide +kernel

end LogLevel
end Verif
