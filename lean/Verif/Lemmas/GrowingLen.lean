import Verif.Lemmas.GrowingItems

/-!
# The tables of a growing set do not get smaller
-/
namespace Verif
namespace Growing
open Conc

theorem conc_len {g : Bool} {s s' : ConcSet.Shared} {l : ConcSet.Loc} {out : ConcSet.Loc ⊕ ConcSet.SetRet}
    (h : ConcSet.step g s l = some (s', out)) : s'.arr.length = s.arr.length := by
  cases l <;> simp only [ConcSet.step] at h
  all_goals repeat' (first | (split at h) | (cases h; done))
  all_goals first
    | (cases h; done)
    | (cases h; rfl)
    | (cases h; exact List.length_set)

theorem mig_len {s s' : Migrate.Shared} {l : Migrate.Loc} {out : Migrate.Loc ⊕ Unit}
    (h : Migrate.step s l = some (s', out)) : s'.new.arr.length = s.new.arr.length := by
  cases l <;> simp only [Migrate.step] at h
  all_goals repeat' (first | (split at h) | (cases h; done))
  all_goals first
    | (cases h; done)
    | (cases h; rfl)
    | (cases h; exact List.length_set)

/-- Every table has at least `m` slots. -/
def MinLen (m : Nat) (s : Shared) : Prop := ∀ tb ∈ s.tabs, m ≤ tb.t.arr.length

theorem step_minLen {m : Nat} {s s' : Shared} {l : Loc} {out : Loc ⊕ ConcSet.SetRet} (hm : MinLen m s)
    (h : step s l = some (s', out)) : MinLen m s' := by
  cases l with
  | tab x l =>
    simp only [step] at h
    split at h
    · cases h
    · split at h
      · cases h
      · rename_i tb htb
        split at h
        · cases h
        · rename_i t' o hst
          injection h with h
          injection h with h1 _
          subst h1
          intro tb' htb'
          rcases List.mem_or_eq_of_mem_set htb' with h2 | rfl
          · exact hm _ h2
          · show m ≤ t'.arr.length
            rw [conc_len hst]
            exact hm _ (List.mem_of_getElem? htb)
  | g1 x c =>
    simp only [step] at h
    split at h
    · cases h
    · split at h
      · cases h
      · rename_i tb htb
        split at h
        · injection h with h
          injection h with h1 _
          subst h1
          intro tb' htb'
          rcases List.mem_append.1 htb' with h2 | h2
          · exact hm _ h2
          · rw [List.mem_singleton.1 h2]
            have h3 := hm _ (List.mem_of_getElem? htb)
            have h4 := le_nextPow2 (tb.t.arr.length * 2)
            simp only [ConcSet.new, List.length_replicate]
            omega
        · cases h
          exact hm
  | mig x w l c =>
    simp only [step] at h
    split at h
    · cases h
    · split at h
      · rename_i old nw hold hnw
        split at h
        · cases h
        · rename_i t' o hst
          injection h with h
          injection h with h1 _
          subst h1
          intro tb' htb'
          rcases List.mem_or_eq_of_mem_set htb' with h2 | rfl
          · rcases List.mem_or_eq_of_mem_set h2 with h2 | rfl
            · exact hm _ h2
            · show m ≤ t'.new.arr.length
              rw [mig_len hst]
              exact hm _ (List.mem_of_getElem? hnw)
          · exact hm old (List.mem_of_getElem? hold)
      · cases h
  | _ =>
    simp only [step] at h
    repeat' (first | (split at h) | (cases h; done))
    all_goals first
      | (cases h; done)
      | (cases h; exact hm)

theorem reach_minLen {n a size m : Nat} {c : Config n Shared Loc Op ConcSet.SetRet} (h : ReachTimely (new a size m) c) :
    MinLen size c.sh := by
  induction h with
  | init =>
    intro tb htb
    rw [List.mem_singleton.1 htb]
    simp only [ConcSet.new, List.length_replicate]
    exact le_nextPow2 size
  | step _ hst _ _ ih =>
    cases hst with
    | call t op h1 _ => exact ih
    | internal t A s' l' h1 h2 => exact step_minLen ih h2
    | ret t A s' r h1 h2 => exact step_minLen ih h2

end Growing
end Verif
