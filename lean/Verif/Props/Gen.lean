import Verif.Model.Gen
import Verif.Props.Sample
import Verif.Props.Box

/-!
# C70, C85: point generators
-/
namespace Verif
namespace Gen
open Vecs
variable {D : Nat} {K : Type} [Field K] [LinearOrder K]

theorem bind_done_iff {α β : Type _} {x : Res α} {f : α → Res β} {b : β} :
    x.bind f = .done b ↔ ∃ a, x = .done a ∧ f a = .done b := by
  cases x <;> simp

/-- The point `p` is in the box. -/
def InBox (b : Box D K) (p : Vec D K) : Prop := ∀ d, b.low d ≤ p d ∧ p d ≤ b.high d

/-- There are points with the numbers `0, …, n`, and those from 1 on are initialised and in the box. -/
def Good (b : Box D K) (n : Nat) (pts : Pts D K) : Prop :=
  pts.length = n + 1 ∧ ∀ i : Nat, 1 ≤ i → i ≤ n → ∃ p : Vec D K, pts[i]? = some (some p) ∧ InBox b p

/-- One of the points `1, …, n` is not initialised. -/
def Hole (n : Nat) (pts : Pts D K) : Prop := ∃ i : Nat, 1 ≤ i ∧ i ≤ n ∧ pts[i]? = some none

theorem not_good_of_hole {b : Box D K} {n : Nat} {pts : Pts D K} (h : Hole n pts) : ¬ Good b n pts := by
  rintro ⟨_, hg⟩
  obtain ⟨i, h1, h2, h3⟩ := h
  obtain ⟨p, hp, _⟩ := hg i h1 h2
  rw [h3] at hp
  simp at hp

/-! ### The loops -/

theorem put_done {i : Nat} {p : Option (Vec D K)} {pts pts' : Pts D K} (h : put i p pts = .done pts') :
    i < pts.length ∧ pts' = pts.set i p := by
  unfold put at h
  split_ifs at h with hi
  exact ⟨hi, by cases h; rfl⟩

theorem fill_spec_inv (I : Nat → Prop) (mk : Nat → Nat → Res (Option (Vec D K) × Nat)) (P : Nat → Option (Vec D K) → Prop) :
    ∀ (l : List Nat) (s s' : Pts D K × Nat), I s.2 →
      (∀ i ∈ l, ∀ pos x, I pos → mk i pos = .done x → P i x.1 ∧ I x.2) → fill mk l s = .done s' →
      s'.1.length = s.1.length ∧ (∀ i ∈ l, i < s.1.length) ∧ (∀ j : Nat, j ∉ l → s'.1[j]? = s.1[j]?) ∧
        ∀ j ∈ l, ∃ o, s'.1[j]? = some o ∧ P j o := by
  intro l
  induction l with
  | nil =>
    intro s s' _ _ h
    cases h
    simp
  | cons i l ih =>
    intro s s' hI hP h
    simp only [fill] at h
    obtain ⟨x, hx, h⟩ := bind_done_iff.mp h
    obtain ⟨pts, hput, h⟩ := bind_done_iff.mp h
    obtain ⟨hi, rfl⟩ := put_done hput
    obtain ⟨h1, h2, h3, h4⟩ := ih _ s' (hP i List.mem_cons_self _ _ hI hx).2 (fun j hj => hP j (List.mem_cons_of_mem _ hj)) h
    simp only [List.length_set] at h1 h2
    refine ⟨h1, ?_, ?_, ?_⟩
    · intro j hj
      rcases List.mem_cons.mp hj with rfl | hj
      · exact hi
      · exact h2 j hj
    · intro j hj
      rw [List.mem_cons, not_or] at hj
      rw [h3 j hj.2]
      exact List.getElem?_set_ne (Ne.symm hj.1)
    · intro j hj
      by_cases hjl : j ∈ l
      · exact h4 j hjl
      · have : j = i := by
          rcases List.mem_cons.mp hj with h | h
          · exact h
          · exact absurd h hjl
        subst this
        refine ⟨x.1, ?_, (hP j List.mem_cons_self _ _ hI hx).1⟩
        rw [h3 j hjl]
        simp [List.getElem?_set_self hi]

theorem fill_spec (mk : Nat → Nat → Res (Option (Vec D K) × Nat)) (P : Nat → Option (Vec D K) → Prop)
    (l : List Nat) (s s' : Pts D K × Nat) (hP : ∀ i ∈ l, ∀ pos x, mk i pos = .done x → P i x.1) (h : fill mk l s = .done s') :
      s'.1.length = s.1.length ∧ (∀ i ∈ l, i < s.1.length) ∧ (∀ j : Nat, j ∉ l → s'.1[j]? = s.1[j]?) ∧
        ∀ j ∈ l, ∃ o, s'.1[j]? = some o ∧ P j o :=
  fill_spec_inv (fun _ => True) mk P l s s' trivial (fun i hi pos x _ hx => ⟨hP i hi pos x hx, trivial⟩) h

theorem fill_done (mk : Nat → Nat → Res (Option (Vec D K) × Nat)) :
    ∀ (l : List Nat) (s : Pts D K × Nat), (∀ i ∈ l, i < s.1.length) → (∀ i ∈ l, ∀ pos, ∃ x, mk i pos = .done x) →
      ∃ s', fill mk l s = .done s' := by
  intro l
  induction l with
  | nil => intro s _ _; exact ⟨s, rfl⟩
  | cons i l ih =>
    intro s hl hmk
    obtain ⟨x, hx⟩ := hmk i List.mem_cons_self s.2
    have hi := hl i List.mem_cons_self
    obtain ⟨s', hs'⟩ := ih (s.1.set i x.1, x.2) (by
      intro j hj
      rw [List.length_set]
      exact hl j (List.mem_cons_of_mem _ hj)) fun j hj => hmk j (List.mem_cons_of_mem _ hj)
    refine ⟨s', ?_⟩
    simp only [fill, hx, Res.bind_done, put, if_pos hi]
    exact hs'

@[simp] theorem length_init (n : Nat) : (init n : Pts D K).length = n + 1 := by simp [init]

theorem init_get {n j : Nat} (h1 : 1 ≤ j) (h2 : j ≤ n) : (init n : Pts D K)[j]? = some none := by
  obtain ⟨j, rfl⟩ : ∃ k, j = k + 1 := ⟨j - 1, by omega⟩
  simp only [init, List.getElem?_cons_succ]
  rw [List.getElem?_replicate, if_pos (by omega)]

theorem containsPoint_iff' (b : Box D K) (p : Vec D K) : b.containsPoint p = true ↔ InBox b p := by
  simp [Box.containsPoint, Box.allDims_iff, InBox]

theorem reject_spec (b : Box D K) (f : Vec D K → Vec D K) (r : Nat → K) :
    ∀ fuel pos x, reject b f r fuel pos = .done x → ∃ p, x.1 = some p ∧ InBox b p := by
  intro fuel
  induction fuel with
  | zero => intro pos x h; simp [reject] at h
  | succ fuel ih =>
    intro pos x h
    simp only [reject] at h
    split_ifs at h with hc
    · cases h
      exact ⟨_, rfl, (containsPoint_iff' b _).mp hc⟩
    · exact ih _ _ h

/-! ### The spatial sort -/

theorem good_iff (b : Box D K) (n : Nat) (pts : Pts D K) :
    Good b n pts ↔ pts.length = n + 1 ∧ ∀ o ∈ pts.tail, ∃ p, o = some p ∧ InBox b p := by
  constructor
  · rintro ⟨hl, h⟩
    refine ⟨hl, fun o ho => ?_⟩
    obtain ⟨k, hk⟩ := List.mem_iff_getElem?.mp ho
    rw [List.getElem?_tail] at hk
    have hlt : k + 1 < pts.length := (List.getElem?_eq_some_iff.mp hk).1
    obtain ⟨p, hp, hb⟩ := h (k + 1) (by omega) (by omega)
    rw [hk] at hp
    exact ⟨p, Option.some.inj hp, hb⟩
  · rintro ⟨hl, h⟩
    refine ⟨hl, fun i h1 h2 => ?_⟩
    obtain ⟨i, rfl⟩ : ∃ k, i = k + 1 := ⟨i - 1, by omega⟩
    have hlt : i + 1 < pts.length := by omega
    obtain ⟨p, hp, hb⟩ := h pts[i + 1] (List.mem_iff_getElem?.mpr ⟨i, by
      rw [List.getElem?_tail]; exact List.getElem?_eq_getElem hlt⟩)
    exact ⟨p, by rw [List.getElem?_eq_getElem hlt, hp], hb⟩

theorem hole_iff (n : Nat) (pts : Pts D K) (hl : pts.length = n + 1) : Hole n pts ↔ none ∈ pts.tail := by
  constructor
  · rintro ⟨i, h1, h2, h3⟩
    obtain ⟨i, rfl⟩ : ∃ k, i = k + 1 := ⟨i - 1, by omega⟩
    exact List.mem_iff_getElem?.mpr ⟨i, by rw [List.getElem?_tail]; exact h3⟩
  · intro h
    obtain ⟨k, hk⟩ := List.mem_iff_getElem?.mp h
    rw [List.getElem?_tail] at hk
    have hlt : k + 1 < pts.length := (List.getElem?_eq_some_iff.mp hk).1
    exact ⟨k + 1, by omega, by omega, hk⟩

theorem generate_length {s : Pts D K × Nat} {pts : Pts D K} (h : Generate (.done s) pts) : pts.length = s.1.length := by
  obtain ⟨s', hs, h0, hp⟩ := h
  cases hs
  have := hp.length_eq
  rw [List.length_tail, List.length_tail] at this
  rcases pts with _ | ⟨a, pts⟩ <;> rcases hq : s.1 with _ | ⟨c, q⟩
  · rfl
  · rw [hq] at h0; simp at h0
  · rw [hq] at h0; simp at h0
  · rw [hq] at this; simpa using this

theorem generate_good {b : Box D K} {n : Nat} {s : Pts D K × Nat} {pts : Pts D K} (h : Generate (.done s) pts)
    (hg : Good b n s.1) : Good b n pts := by
  have hl := generate_length h
  obtain ⟨s', hs, h0, hp⟩ := h
  cases hs
  rw [good_iff] at hg ⊢
  exact ⟨hl.trans hg.1, fun o ho => hg.2 o (hp.mem_iff.mp ho)⟩

theorem generate_hole {n : Nat} {s : Pts D K × Nat} {pts : Pts D K} (h : Generate (.done s) pts)
    (hl : s.1.length = n + 1) (hg : Hole n s.1) : Hole n pts := by
  have hl' := (generate_length h).trans hl
  obtain ⟨s', hs, h0, hp⟩ := h
  cases hs
  rw [hole_iff n _ hl] at hg
  rw [hole_iff n _ hl']
  exact hp.mem_iff.mpr hg

theorem generate_of_done {s : Pts D K × Nat} : Generate (.done s) s.1 := ⟨s, rfl, rfl, List.Perm.refl _⟩

theorem Generate.done {g : Res (Pts D K × Nat)} {pts : Pts D K} (h : Generate g pts) : ∃ s, g = .done s :=
  let ⟨s, hs, _⟩ := h; ⟨s, hs⟩

/-! ### The random source -/

theorem onCopy_done {g : Nat → Res (Pts D K × Nat)} {pos : Nat} {s : Pts D K × Nat} (h : onCopy g pos = .done s) :
    s.2 = pos ∧ ∃ e, g pos = .done (s.1, e) := by
  obtain ⟨t, ht, h⟩ := bind_done_iff.mp h
  cases h
  exact ⟨rfl, t.2, ht⟩

theorem onCopy_of_done {g : Nat → Res (Pts D K × Nat)} {pos : Nat} {s : Pts D K × Nat} (h : g pos = .done s) :
    onCopy g pos = .done (s.1, pos) := by
  simp [onCopy, h]

/-! ### Generators that fill all points -/

theorem good_of_fill {b : Box D K} {n : Nat} {mk : Nat → Nat → Res (Option (Vec D K) × Nat)} {pos : Nat}
    {s : Pts D K × Nat} (h : fill mk (List.range' 1 n) (init n, pos) = .done s)
    (hmk : ∀ i pos x, mk i pos = .done x → ∃ p, x.1 = some p ∧ InBox b p) : Good b n s.1 := by
  obtain ⟨h1, _, _, h4⟩ := fill_spec mk (fun _ o => ∃ p, o = some p ∧ InBox b p) _ _ _ (fun i _ => hmk i) h
  refine ⟨by rw [h1, length_init], fun i hi1 hi2 => ?_⟩
  obtain ⟨o, ho, p, rfl, hp⟩ := h4 i (List.mem_range'_1.mpr ⟨hi1, by omega⟩)
  exact ⟨p, ho, hp⟩

section
variable [IsStrictOrderedRing K]

theorem between {lo hi t : K} (h : lo ≤ hi) (h0 : 0 ≤ t) (h1 : t ≤ 1) : lo ≤ lo + (hi - lo) * t ∧ lo + (hi - lo) * t ≤ hi := by
  have h2 : 0 ≤ hi - lo := by linarith
  constructor
  · nlinarith [mul_nonneg h2 h0]
  · nlinarith [mul_le_mul_of_nonneg_left h1 h2]

/-- **C70 (uniform).** The uniform generator fills every point inside the bounds. -/
theorem C70_uniform (b : Box D K) (r : Nat → K) (n pos : Nat) (hb : ∀ d, b.low d ≤ b.high d)
    (hr : ∀ k, 0 ≤ r k ∧ r k ≤ 1) :
    (∃ pts, Generate (uniform b r n pos) pts) ∧ ∀ pts, Generate (uniform b r n pos) pts → Good b n pts := by
  constructor
  · obtain ⟨s, hs⟩ := fill_done (fun _ pos => .done (some fun d => b.low d + (b.high d - b.low d) * r (pos + d), pos + D))
      (List.range' 1 n) (init n, pos) (by
        intro i hi
        rw [length_init]
        have := (List.mem_range'_1.mp hi).2
        omega) fun i _ pos => ⟨_, rfl⟩
    exact ⟨_, by rw [uniform, onCopy_of_done hs]; exact generate_of_done⟩
  · intro pts h
    obtain ⟨s, hs⟩ := h.done
    rw [hs] at h
    obtain ⟨_, e, he⟩ := onCopy_done hs
    refine generate_good h (good_of_fill (s := (s.1, e)) he ?_)
    intro i p x hx
    cases hx
    exact ⟨_, rfl, fun d => between (hb d) (hr _).1 (hr _).2⟩

omit [IsStrictOrderedRing K] in
/-- **C70 (normal).** If the normal generator returns, it has filled every point inside the bounds. -/
theorem C70_normal_partial (fuel : Nat) (b : Box D K) (r : Nat → K) (n pos : Nat) (pts : Pts D K)
    (h : Generate (normal fuel b r n pos) pts) : Good b n pts := by
  obtain ⟨s, hs⟩ := h.done
  rw [hs] at h
  obtain ⟨_, e, he⟩ := onCopy_done hs
  exact generate_good h (good_of_fill (s := (s.1, e)) he fun i p x hx => reject_spec _ _ _ _ _ _ hx)

end

/-! ### Termination of the rejection loops -/

theorem reject_mono (b : Box D K) (f : Vec D K → Vec D K) (r : Nat → K) :
    ∀ fuel pos x, reject b f r fuel pos = .done x → ∀ m, fuel ≤ m → reject b f r m pos = .done x := by
  intro fuel
  induction fuel with
  | zero => intro pos x h; simp [reject] at h
  | succ fuel ih =>
    intro pos x h m hm
    obtain ⟨m, rfl⟩ : ∃ k, m = k + 1 := ⟨m - 1, by omega⟩
    simp only [reject] at h ⊢
    split_ifs at h ⊢ with hc
    · exact h
    · exact ih _ _ h m (by omega)

theorem reject_done (b : Box D K) (f : Vec D K → Vec D K) (r : Nat → K) :
    ∀ k pos, InBox b (f (draw r (pos + k * D))) → ∃ x, reject b f r (k + 1) pos = .done x ∧ ∃ j, x.2 = pos + j * D := by
  intro k
  induction k with
  | zero =>
    intro pos h
    rw [Nat.zero_mul, Nat.add_zero] at h
    simp only [reject, if_pos ((containsPoint_iff' b _).mpr h)]
    exact ⟨_, rfl, 1, by simp⟩
  | succ k ih =>
    intro pos h
    rw [reject]
    split_ifs with hc
    · exact ⟨_, rfl, 1, by simp⟩
    · obtain ⟨x, hx, j, hj⟩ := ih (pos + D) (by rw [show pos + D + k * D = pos + (k + 1) * D by ring]; exact h)
      exact ⟨x, hx, j + 1, by rw [hj]; ring⟩

theorem fill_mono (mk : Nat → Nat → Nat → Res (Option (Vec D K) × Nat))
    (hmk : ∀ a i pos x, mk a i pos = .done x → ∀ c, a ≤ c → mk c i pos = .done x) :
    ∀ (l : List Nat) (a : Nat) (s s' : Pts D K × Nat), fill (mk a) l s = .done s' → ∀ c, a ≤ c → fill (mk c) l s = .done s' := by
  intro l
  induction l with
  | nil => intro a s s' h c _; exact h
  | cons i l ih =>
    intro a s s' h c hc
    simp only [fill] at h ⊢
    obtain ⟨x, hx, h⟩ := bind_done_iff.mp h
    obtain ⟨pts, hput, h⟩ := bind_done_iff.mp h
    rw [hmk a i s.2 x hx c hc, Res.bind_done, hput, Res.bind_done]
    exact ih a _ s' h c hc

/-- A loop of rejection loops ends if at every reachable state of the source a good draw is ahead. -/
theorem fill_reject_ends (b : Box D K) (f : Vec D K → Vec D K) (r : Nat → K) (pos0 : Nat)
    (hr : ∀ j, ∃ k, InBox b (f (draw r (pos0 + j * D + k * D)))) :
    ∀ (l : List Nat) (s : Pts D K × Nat), (∀ i ∈ l, i < s.1.length) → (∃ j, s.2 = pos0 + j * D) →
      ∃ fuel s', fill (fun _ pos => reject b f r fuel pos) l s = .done s' ∧ ∃ j, s'.2 = pos0 + j * D := by
  intro l
  induction l with
  | nil => intro s _ hj; exact ⟨0, s, rfl, hj⟩
  | cons i l ih =>
    intro s hl hj
    obtain ⟨j, hj⟩ := hj
    obtain ⟨k, hk⟩ := hr j
    obtain ⟨x, hx, j', hj'⟩ := reject_done b f r k s.2 (by rw [hj]; exact hk)
    have hi := hl i List.mem_cons_self
    obtain ⟨fuel, s', hs', hjj⟩ := ih (s.1.set i x.1, x.2) (by
      intro m hm
      rw [List.length_set]
      exact hl m (List.mem_cons_of_mem _ hm)) ⟨j + j', by rw [hj', hj]; ring⟩
    refine ⟨max (k + 1) fuel, s', ?_, hjj⟩
    rw [fill, reject_mono b f r _ _ _ hx _ (Nat.le_max_left _ _), Res.bind_done, put, if_pos hi, Res.bind_done]
    exact fill_mono (fun a _ pos => reject b f r a pos) (fun a i pos x h c hc => reject_mono b f r a pos x h c hc) l fuel _ s' hs'
      _ (Nat.le_max_right _ _)

/-- **C70 (normal, returns).** The normal generator returns if good draws never run out. -/
theorem C70_normal_ends (b : Box D K) (r : Nat → K) (n pos : Nat)
    (hr : ∀ j, ∃ k, InBox b (around b (draw r (pos + j * D + k * D)))) : ∃ fuel pts, Generate (normal fuel b r n pos) pts := by
  obtain ⟨fuel, s, hs, _⟩ := fill_reject_ends b (around b) r pos hr (List.range' 1 n) (init n, pos) (by
    intro i hi
    rw [length_init]
    have := (List.mem_range'_1.mp hi).2
    omega) ⟨0, by simp⟩
  exact ⟨fuel, s.1, by rw [normal, onCopy_of_done (s := s) hs]; exact generate_of_done⟩

end Gen
end Verif
