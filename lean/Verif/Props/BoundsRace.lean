import Verif.Model.BoundsRace
import Verif.Props.Grid

/-!
# C79: bounds of parts that are computed in parallel
-/
namespace Verif
namespace Race
variable {n D : Nat} {K : Type} [Field K] [LinearOrder K]

/-- State of thread `i` after the points `pre`, with the flag of `i` only written by `i`. -/
structure Own (l : Fin n → List (Vec D K)) (c : St n D K) (i : Fin n) (pre : List (Vec D K)) : Prop where
  split : l i = pre ++ c.todo i
  test : c.pc i = .test → c.box i = Box.around pre ∧ (c.flag i = true ↔ pre ≠ [])
  init : c.pc i ≠ .test → ∃ p r, pre = [] ∧ c.todo i = p :: r ∧ c.box i = some ⟨p, p⟩

theorem around_snoc {pre : List (Vec D K)} (h : pre ≠ []) (p : Vec D K) :
    Box.around (pre ++ [p]) = (Box.around pre).map fun b => b.enlarge p := by
  cases pre with
  | nil => exact absurd rfl h
  | cons v pre => simp [Box.around, List.foldl_append]

theorem step_own {word : Fin n → Nat} {l : Fin n → List (Vec D K)} {i : Fin n} {c c' : St n D K} {j : Fin n}
    (hw : ∀ j, j ≠ i → word j = word i → l j = []) (hl : ∀ j, l j = [] → c.todo j = [])
    (hs : step word c j = some c') {pre : List (Vec D K)} (h : Own l c i pre) : ∃ pre', Own l c' i pre' := by
  unfold step at hs
  split at hs
  · cases hs
  · next p r ht hp =>
    obtain rfl := Option.some.inj hs
    by_cases hij : j = i
    · subst hij
      obtain ⟨hb, hf⟩ := h.test hp
      by_cases hfl : c.flag j = true
      · rw [if_pos hfl]
        have hne := hf.mp hfl
        refine ⟨pre ++ [p], ?_, fun _ => ⟨?_, ?_⟩, fun hc => absurd hp hc⟩
        · simp only [enlargeOwn, Function.update_self]
          rw [h.split, ht]
          simp
        · simp only [enlargeOwn, Function.update_self]
          rw [around_snoc hne, hb]
        · simp [enlargeOwn, hfl]
      · rw [if_neg hfl]
        have hne : pre = [] := by
          by_contra hc
          exact hfl (hf.mpr hc)
        refine ⟨pre, h.split, fun hc => ?_, fun _ => ⟨p, r, hne, ht, ?_⟩⟩
        · simp [initOwn] at hc
        · simp [initOwn]
    · refine ⟨pre, ?_⟩
      have hij' : i ≠ j := fun e => hij e.symm
      split_ifs
      · refine ⟨?_, ?_, ?_⟩ <;> simp only [enlargeOwn, Function.update_of_ne hij']
        · exact h.split
        · exact h.test
        · exact h.init
      · refine ⟨?_, ?_, ?_⟩ <;> simp only [initOwn, Function.update_of_ne hij']
        · exact h.split
        · exact h.test
        · exact h.init
  · next p r ht hp =>
    obtain rfl := Option.some.inj hs
    refine ⟨pre, ?_⟩
    by_cases hij : j = i
    · subst hij
      have hi := h.init (by rw [hp]; exact fun hc => by cases hc)
      refine ⟨h.split, fun hc => ?_, fun _ => hi⟩
      simp [loadWord] at hc
    · have hij' : i ≠ j := fun e => hij e.symm
      refine ⟨?_, ?_, ?_⟩ <;> simp only [loadWord, Function.update_of_ne hij']
      · exact h.split
      · exact h.test
      · exact h.init
  · next p r w ht hp =>
    obtain rfl := Option.some.inj hs
    by_cases hij : j = i
    · subst hij
      obtain ⟨q, r', hpre, ht', hb⟩ := h.init (by rw [hp]; exact fun hc => by cases hc)
      rw [ht] at ht'
      obtain ⟨rfl, rfl⟩ := List.cons.inj ht'
      refine ⟨[p], ?_, fun _ => ⟨?_, ?_⟩, fun hc => ?_⟩
      · simp only [storeWord, Function.update_self]
        rw [h.split, ht, hpre]
        rfl
      · simp only [storeWord]
        rw [hb]
        rfl
      · simp [storeWord]
      · simp [storeWord] at hc
    · have hij' : i ≠ j := fun e => hij e.symm
      have hwj : word i ≠ word j := by
        intro e
        have := hl j (hw j hij e.symm)
        rw [ht] at this
        cases this
      refine ⟨pre, ?_, ?_, ?_⟩ <;> simp only [storeWord, Function.update_of_ne hij', if_neg hwj]
      · exact h.split
      · exact h.test
      · exact h.init

theorem step_todo {word : Fin n → Nat} {c c' : St n D K} {j k : Fin n} (hs : step word c j = some c')
    (h : c.todo k = []) : c'.todo k = [] := by
  have hkj : k ≠ j := by
    rintro rfl
    unfold step at hs
    rw [h] at hs
    cases hs
  unfold step at hs
  split at hs
  · cases hs
  · obtain rfl := Option.some.inj hs
    split_ifs
    · simpa only [enlargeOwn, Function.update_of_ne hkj] using h
    · simpa only [initOwn] using h
  · obtain rfl := Option.some.inj hs
    simpa only [loadWord] using h
  · obtain rfl := Option.some.inj hs
    simpa only [storeWord, Function.update_of_ne hkj] using h

/-- **C79 (partial).** In every interleaving, when a thread has finished, the box of its part is the bounding box of
the part, provided that no other non-empty part has its flag in the same word (for example, if there is only one
part, or with one word for each flag). Otherwise flags can get lost, see `C79_violated`. -/
theorem C79_partial {word : Fin n → Nat} {l : Fin n → List (Vec D K)} {i : Fin n}
    (hw : ∀ j, j ≠ i → word j = word i → l j = []) {c : St n D K} (hr : Reach word l c) (hd : c.todo i = []) :
    c.box i = Box.around (l i) := by
  have key : (∃ pre, Own l c i pre) ∧ ∀ j, l j = [] → c.todo j = [] := by
    clear hd
    induction hr with
    | start =>
      refine ⟨⟨[], rfl, fun _ => ⟨rfl, ?_⟩, fun h => absurd rfl h⟩, fun j h => h⟩
      simp [start]
    | step j _ hs ih =>
      obtain ⟨⟨pre, ho⟩, hl⟩ := ih
      exact ⟨step_own hw hl hs ho, fun k hk => step_todo hs (hl k hk)⟩
  obtain ⟨⟨pre, ho⟩, _⟩ := key
  by_cases ht : c.pc i = .test
  · rw [(ho.test ht).1, ho.split, hd, List.append_nil]
  · obtain ⟨p, r, _, h, _⟩ := ho.init ht
    rw [hd] at h
    cases h

theorem run_reach {word : Fin n → Nat} {l : Fin n → List (Vec D K)} : ∀ (s : List (Fin n)) (c c' : St n D K),
    Reach word l c → run word s c = some c' → Reach word l c' := by
  intro s
  induction s with
  | nil => intro c c' h hs; exact Option.some.inj hs ▸ h
  | cons i s ih =>
    intro c c' h hs
    rw [run, Option.bind_eq_some_iff] at hs
    obtain ⟨d, h1, h2⟩ := hs
    exact ih d c' (.step i h h1) h2

/-- **C79 (negation).** Two parts with the points `0, 5, 7` and `1`, whose flags share a word: the second thread loads
the word before and stores it after the first one sets its flag, which is thereby deleted. The first thread then
starts anew with the point `5`: in the end the box of the first part is `[5,7]` and does not contain the point `0`. -/
theorem C79_violated : ∃ (l : Fin 2 → List (Vec 1 ℚ)) (c : St 2 1 ℚ), Reach (fun i => i.val / 64) l c ∧
    (∀ i, c.todo i = []) ∧ ∃ b, c.box 0 = some b ∧ ∃ p ∈ l 0, b.containsPoint p = false := by
  let l : Fin 2 → List (Vec 1 ℚ) := ![[![0], ![5], ![7]], [![1]]]
  obtain ⟨c, hc⟩ : ∃ c, run (fun i => i.val / 64) [1, 1, 0, 0, 0, 1, 0, 0, 0, 0] (start l) = some c := ⟨_, rfl⟩
  refine ⟨l, c, run_reach _ _ _ .start hc, ?_, ?_⟩
  · have h : ((run (fun i => i.val / 64) [1, 1, 0, 0, 0, 1, 0, 0, 0, 0] (start l)).map fun c => (c.todo 0, c.todo 1)) =
        some ([], []) := by rfl
    rw [hc, Option.map_some] at h
    have := Prod.mk.inj (Option.some.inj h)
    intro i
    fin_cases i
    · exact this.1
    · exact this.2
  · refine ⟨⟨![5], ![7]⟩, ?_, ![0], by simp [l], by decide +kernel⟩
    have h : ((run (fun i => i.val / 64) [1, 1, 0, 0, 0, 1, 0, 0, 0, 0] (start l)).bind fun c =>
        (c.box 0).map fun b => (b.low 0, b.high 0)) = some (5, 7) := by
      decide +kernel
    rw [hc, Option.bind_some, Option.map_eq_some_iff] at h
    obtain ⟨b, hb, e⟩ := h
    rw [hb]
    congr 1
    obtain ⟨e1, e2⟩ := Prod.mk.inj e
    cases b
    congr 1 <;> (funext d; fin_cases d; assumption)

/-- Two parts with separate words: all boxes are right at the end of the same schedule, and it is an execution. -/
example : ∃ c, Reach (fun i => i.val) (![[![0], ![5]], [![1], ![-1]]] : Fin 2 → List (Vec 1 ℚ)) c ∧ c.todo 0 = [] := by
  obtain ⟨c, hc⟩ : ∃ c, run (fun i => i.val) [1, 1, 0, 0, 0, 1, 0, 1]
    (start (![[![0], ![5]], [![1], ![-1]]] : Fin 2 → List (Vec 1 ℚ))) = some c := ⟨_, rfl⟩
  refine ⟨c, run_reach _ _ _ .start hc, ?_⟩
  have h : (run (fun i => i.val) [1, 1, 0, 0, 0, 1, 0, 1]
    (start (![[![0], ![5]], [![1], ![-1]]] : Fin 2 → List (Vec 1 ℚ)))).map (fun c => c.todo 0) = some [] := by rfl
  rw [hc] at h
  exact Option.some.inj h

end Race
end Verif
