import Verif.Lemmas.GrowingSolo
import Verif.Lemmas.Growing
import Mathlib.Data.Nat.ModEq
import Mathlib.Algebra.Ring.Parity
import Mathlib.Data.Nat.Prime.Basic
import Mathlib.Tactic.IntervalCases

/-!
# C114: calls of a growing set that do not overlap, and its memory
-/
namespace Verif
namespace Growing
open Conc

/-- Insertions with handles, one after the other, their results and the state at the end. -/
inductive Calls : Shared → List (Nat × Nat) → List ConcSet.SetRet → Shared → Prop
  | nil (s : Shared) : Calls s [] [] s
  | cons {s s1 s2 : Shared} {h k : Nat} {ops : List (Nat × Nat)} {r : ConcSet.SetRet} {rs : List ConcSet.SetRet} :
      Solo s (start (.insert h k)) s1 r → Calls s1 ops rs s2 → Calls s ((h, k) :: ops) (r :: rs) s2

/-- Number of slots of the current table. (include/datastructures/Growing_LP.hxx:57-59, 65-76) -/
def slots (s : Shared) : Nat :=
  match s.tabs[s.tr]? with
  | none => 0
  | some tb => tb.t.arr.length

/-- What the insertions of the keys should return if the keys `seen` are in the set. -/
def firsts : List Nat → List Nat → List ConcSet.SetRet
  | _, [] => []
  | seen, k :: ks => .bool (decide (k ∉ seen)) :: firsts (k :: seen) ks

theorem Quiet1.slots {a p : Nat} {s : Shared} {arr : List Nat} (h : Quiet1 a p s arr) : slots s = 2 ^ p := by
  unfold Growing.slots
  rw [h.tr, h.get]
  exact h.len

/-- A handle is brought up to date. -/
theorem sync_go {a p : Nat} {s : Shared} {arr : List Nat} (h : Quiet1 a p s arr) {hd : Nat} (hlt : hd < s.hs.length)
    (k : Nat) : ∃ s', Quiet1 a p s' arr ∧ s'.hs[hd]? = some (s'.er, s'.er) ∧ s'.hs.length = s.hs.length ∧
      Go s (.ins0 hd k) s' (.tab hd (.check k)) := by
  obtain ⟨⟨le, lt⟩, hle⟩ : ∃ x, s.hs[hd]? = some x := ⟨_, List.getElem?_eq_getElem hlt⟩
  obtain ⟨h1, h2⟩ := h.hs hd le lt hle
  subst h1
  by_cases hc : s.ew > le
  · refine ⟨{ s with hs := (s.hs.set hd (s.er, le)).set hd (s.er, s.er) }, ?_, by simp [hlt], by simp, ?_⟩
    · refine ⟨h.tabs, h.ew, h.tr, h.hel, h.mult, h.len, h.path, h.hm, fun h' le' lt' hl => ?_⟩
      simp only [List.set_set] at hl ⊢
      rw [List.getElem?_set] at hl
      split at hl
      · simp only [hlt, if_true, Option.some.injEq, Prod.mk.injEq] at hl
        omega
      · exact h.hs h' le' lt' hl
    · refine (Go.one (s' := s) (l' := .gt1 hd (.check k s.ew)) ?_).trans
        ((Go.one (s' := { s with hs := s.hs.set hd (s.er, le) }) (l' := .gt2 hd (.check k s.ew)) ?_).trans (.one ?_))
      · simp only [step, hle, if_pos hc]
      · simp only [step, hle]
      · have : ({ s with hs := s.hs.set hd (s.er, le) } : Shared).hs[hd]? = some (s.er, le) := by simp [hlt]
        simp only [step, this]
        simp [h.tr, h.ew, afterGet]
  · have : le = s.er := by have := h.ew; omega
    subst this
    refine ⟨s, h, hle, rfl, .one ?_⟩
    simp only [step, hle, if_neg hc]

/-- Multiplication by an odd number permutes the residues. -/
theorem hash_inj {a x y p q : Nat} (ha : Odd a) (hx : x < 2 ^ 64) (hy : y < 2 ^ 64) (hpq : q ≤ p)
    (h : hash64 a x % 2 ^ p = hash64 a y % 2 ^ p) : x % 2 ^ q = y % 2 ^ q := by
  have hco : ∀ r, Nat.Coprime (2 ^ r) a := fun r => Nat.Coprime.pow_left r ((Nat.coprime_two_left).2 ha)
  unfold hash64 at h
  by_cases hp : p ≤ 64
  · rw [Nat.mod_mod_of_dvd _ (pow_dvd_pow 2 hp), Nat.mod_mod_of_dvd _ (pow_dvd_pow 2 hp)] at h
    have h1 : x ≡ y [MOD 2 ^ p] := Nat.ModEq.cancel_left_of_coprime (hco p) h
    exact h1.of_dvd (pow_dvd_pow 2 hpq)
  · have hb : 2 ^ 64 ≤ 2 ^ p := Nat.pow_le_pow_right (by omega) (by omega)
    have h64 : 0 < 2 ^ 64 := Nat.pow_pos (by omega)
    rw [Nat.mod_eq_of_lt ((Nat.mod_lt _ h64).trans_le hb), Nat.mod_eq_of_lt ((Nat.mod_lt _ h64).trans_le hb)] at h
    have h1 : x ≡ y [MOD 2 ^ 64] := Nat.ModEq.cancel_left_of_coprime (hco 64) h
    have h2 : x = y := by
      have := h1
      unfold Nat.ModEq at this
      rwa [Nat.mod_eq_of_lt hx, Nat.mod_eq_of_lt hy] at this
    rw [h2]

/-- One attempt: the key is there or is written into one of the eleven slots that are looked at, or the table grows. -/
theorem round {a p : Nat} {s : Shared} {arr : List Nat} (h : Quiet1 a p s arr) {hd : Nat} (hlt : hd < s.hs.length)
    {k : Nat} (hk : k ≠ 0) :
    (∃ s' arr', Quiet1 a p s' arr' ∧ s'.hs.length = s.hs.length ∧ Ins a arr k arr' ∧
      (k ∉ arr → ∃ d, d ≤ 10 ∧ sl arr (hash64 a k + d) = 0) ∧ Solo s (.ins0 hd k) s' (.bool (decide (k ∉ arr)))) ∨
    ∃ s' arr', Quiet1 a (p + 1) s' arr' ∧ s'.hs.length = s.hs.length ∧ (∀ x, x ≠ 0 → (x ∈ arr' ↔ x ∈ arr)) ∧
      occ arr' = occ arr ∧
      (arr.length / 2 ≤ occ arr ∨ sl arr (hash64 a k) ≠ 0 ∧ sl arr (hash64 a k) ≠ k) ∧
      Go s (.ins0 hd k) s' (.ins0 hd k) := by
  have hn : 0 < arr.length := by rw [h.len]; exact Nat.pow_pos (by omega)
  obtain ⟨s1, h1, hh1, hl1, hg1⟩ := sync_go h hlt k
  by_cases hfull : arr.length / 2 ≤ occ arr
  · obtain ⟨s2, arr2, h2, hh2, hl2, hm2, ho2, hg2⟩ := grow_go h1 hh1 k
    refine Or.inr ⟨s2, arr2, h2, by rw [hl2, hl1], hm2, ho2, Or.inl hfull, hg1.trans (Go.trans (.one ?_) hg2)⟩
    simp only [step, hh1, h1.get, ConcSet.step]
    simp only [true_and, ge_iff_le, if_pos hfull, set_self h1]
  · have hg2 : Go s1 (.tab hd (.check k)) s1 (.tab hd (.probe k (hash64 a k) 0)) := by
      refine .one (step_tab h1 hh1 ?_)
      simp only [ConcSet.step]
      simp [hfull]
    rcases probe_solo h1 hh1 hk 11 0 (hash64 a k) rfl (by omega) rfl (fun e he => absurd he (by omega)) with
      ⟨g1, g2⟩ | ⟨d, g1, g2, g3, g4⟩ | ⟨g1, g2⟩
    · refine Or.inl ⟨s1, arr, h1, hl1, Or.inl ⟨g1, rfl⟩, fun hno => absurd g1 hno, ?_⟩
      rw [show decide (k ∉ arr) = false by simp [g1]]
      exact (hg1.trans hg2).solo g2
    · have hno := h.path.not_mem hk g2 g3
      have hins : Ins a arr k (arr.set ((hash64 a k + d) % arr.length) k) := Or.inr ⟨d, g2, g3, rfl⟩
      have ho : occ (arr.set ((hash64 a k + d) % arr.length) k) = occ arr + 1 :=
        occ_set (Nat.mod_lt _ hn) (by rw [sl_get hn, g2]) hk
      refine Or.inl ⟨{ s1 with tabs := s1.tabs.set s1.er ⟨⟨arr.set ((hash64 a k + d) % arr.length) k, occ arr + 1, a⟩, 0⟩ }, _,
        ?_, hl1, hins, fun _ => ⟨d, g1, g2⟩, ?_⟩
      rotate_left
      · rw [show decide (k ∉ arr) = true by simp [hno]]
        exact (hg1.trans hg2).solo g4
      · obtain ⟨pre, ht, hpre⟩ := h1.tabs
        refine ⟨⟨pre, ?_, hpre⟩, h1.ew, h1.tr, h1.hel, ?_, by rw [hins.length]; exact h1.len, hins.path hn h1.path,
          hins.hm hn hk h1.hm, h1.hs⟩
        · simp only [ht, ho]
          rw [← hpre, List.set_append_right _ _ (by omega)]
          simp
        · have h2 := h1.mult
          simp only [Shared.mult, ht] at h2 ⊢
          cases pre with
          | nil =>
            have e : s1.er = 0 := by rw [← hpre]; rfl
            rw [e]
            rfl
          | cons t pre =>
            have e : s1.er = pre.length + 1 := by rw [← hpre]; rfl
            rw [e]
            exact h2
    · obtain ⟨s2, arr2, h2, hh2, hl2, hm2, ho2, hg3⟩ := grow_go h1 hh1 k
      exact Or.inr ⟨s2, arr2, h2, by rw [hl2, hl1], hm2, ho2, Or.inr (g1 0 (by omega)), hg1.trans (hg2.trans (g2.trans hg3))⟩

/-- Keys with the same home slot before a free slot. -/
theorem cluster {a h d : Nat} {arr : List Nat} (hn : 0 < arr.length) (hp : PathOk (hash64 a) arr) (G : Finset Nat)
    (hG : ∀ x ∈ G, x ∈ arr ∧ x ≠ 0 ∧ hash64 a x % arr.length = h % arr.length) (h0 : sl arr (h + d) = 0) : G.card ≤ d := by
  have hsl : ∀ x ∈ G, ∀ e, sl arr (hash64 a x + e) = sl arr (h + e) := by
    intro x hx e
    rw [← sl_mod_add, (hG x hx).2.2, sl_mod_add]
  have hex : ∀ x ∈ G, ∃ e, e < d ∧ sl arr (h + e) = x := by
    intro x hx
    obtain ⟨h1, h2, h3⟩ := hG x hx
    obtain ⟨i, hi, he⟩ := (mem_iff_sl x).1 h1
    obtain ⟨e, _, h4⟩ := hp i hi (by rw [he]; exact h2)
    rw [he] at h4
    refine ⟨e, ?_, by rw [← hsl x hx]; exact h4.1⟩
    by_contra hge
    rcases Nat.lt_or_eq_of_le (Nat.not_lt.1 hge) with h5 | h5
    · exact (h4.2 d h5).1 (by rw [hsl x hx]; exact h0)
    · subst h5
      have := h4.1
      rw [hsl x hx, h0] at this
      exact h2 this.symm
  have : G ⊆ (Finset.range d).image fun e => sl arr (h + e) := by
    intro x hx
    obtain ⟨e, h1, h2⟩ := hex x hx
    exact Finset.mem_image.2 ⟨e, Finset.mem_range.2 h1, h2⟩
  exact (Finset.card_le_card this).trans (Finset.card_image_le.trans (by simp))

/-- Twelve keys with the same residue are not in a table together, unless it is large. -/
def Low (F : Finset Nat) (Q p : Nat) (arr : List Nat) : Prop := (∀ x ∈ F, x ∈ arr) → Q < p

/-- The first case of `round` ends the insertion. -/
theorem put {a p q : Nat} {s : Shared} {arr : List Nat} (h : Quiet1 a p s arr) {hd : Nat} {k : Nat} (hk : k ≠ 0)
    (hx : ∃ s' arr', Quiet1 a p s' arr' ∧ s'.hs.length = s.hs.length ∧ Ins a arr k arr' ∧
      (k ∉ arr → ∃ d, d ≤ 10 ∧ sl arr (hash64 a k + d) = 0) ∧ Solo s (.ins0 hd k) s' (.bool (decide (k ∉ arr)))) :
    ∃ s' p' arr', Quiet1 a p' s' arr' ∧ s'.hs.length = s.hs.length ∧ (∀ x, x ≠ 0 → (x ∈ arr' ↔ x ∈ arr ∨ x = k)) ∧
      2 ^ p' ≤ max (2 ^ p) (max (2 ^ q) (4 * occ arr + 2)) ∧
      (∀ (F : Finset Nat) (Q : Nat), 12 ≤ F.card → Q ≤ 64 → (∀ x ∈ F, x ≠ 0 ∧ ∀ y ∈ F, x % 2 ^ Q = y % 2 ^ Q) →
        Low F Q p arr → Low F Q p' arr') ∧
      Solo s (.ins0 hd k) s' (.bool (decide (k ∉ arr))) := by
  have hn : 0 < arr.length := by rw [h.len]; exact Nat.pow_pos (by omega)
  obtain ⟨s', arr', h1, h2, h3, h4, h5⟩ := hx
  refine ⟨s', p, arr', h1, h2, fun x hx => h3.mem hn hx, le_max_left _ _, ?_, h5⟩
  intro F Q hF hQ hFr hlow hsub
  by_cases hall : ∀ x ∈ F, x ∈ arr
  · exact hlow hall
  · by_contra hpQ
    push_neg at hall
    obtain ⟨x, hxF, hxa⟩ := hall
    have hxk : x = k := ((h3.mem hn (hFr x hxF).1).1 (hsub x hxF)).resolve_left hxa
    subst hxk
    obtain ⟨d, hd10, h0⟩ := h4 hxa
    have := cluster hn h.path (F.erase x) (h := hash64 a x) (fun y hy => by
      obtain ⟨hyx, hyF⟩ := Finset.mem_erase.1 hy
      refine ⟨((h3.mem hn (hFr y hyF).1).1 (hsub y hyF)).resolve_right hyx, (hFr y hyF).1, ?_⟩
      have e1 : y ≡ x [MOD 2 ^ p] := Nat.ModEq.of_dvd (pow_dvd_pow 2 (by omega)) ((hFr y hyF).2 x hxF)
      have e2 : a * y ≡ a * x [MOD 2 ^ p] := e1.mul_left a
      rw [h.len]
      unfold hash64
      rw [Nat.mod_mod_of_dvd _ (pow_dvd_pow 2 (by omega)), Nat.mod_mod_of_dvd _ (pow_dvd_pow 2 (by omega))]
      exact e2) h0
    rw [Finset.card_erase_of_mem hxF] at this
    omega

/-- When a table grows, it is half full or its size is less than what separates the residues. -/
theorem grows {a p q : Nat} (ha : Odd a) {s : Shared} {arr : List Nat} {k : Nat} (hk64 : k < 2 ^ 64) (h : Quiet1 a p s arr)
    (h64 : ∀ x ∈ arr, x < 2 ^ 64) (hk : k ≠ 0)
    (hres1 : ∀ x ∈ arr, x ≠ 0 → x % 2 ^ q = k % 2 ^ q → x = k)
    (hres2 : ∀ x ∈ arr, ∀ y ∈ arr, x ≠ 0 → y ≠ 0 → x % 2 ^ q = y % 2 ^ q → x = y)
    (hx : arr.length / 2 ≤ occ arr ∨ sl arr (hash64 a k) ≠ 0 ∧ sl arr (hash64 a k) ≠ k) :
    2 ^ (p + 1) ≤ max (2 ^ q) (4 * occ arr + 2) ∧ 2 ^ p < 2 ^ (p + 1) := by
  have hn : 0 < arr.length := by rw [h.len]; exact Nat.pow_pos (by omega)
  have hpos := Nat.pow_pos (n := p) (show 0 < 2 by omega)
  refine ⟨?_, by rw [pow_succ]; omega⟩
  rcases hx with hx | ⟨hx0, hxk⟩
  · rw [h.len] at hx
    refine le_trans ?_ (le_max_right _ _)
    rw [pow_succ]
    cases p with
    | zero => simp
    | succ p =>
      rw [pow_succ] at hx ⊢
      omega
  · refine le_trans (Nat.pow_le_pow_right (by omega) ?_) (le_max_left _ _)
    by_contra hlt
    have hm := sl_mem hn (hash64 a k)
    have h1 := h.hm (fun x hx y hy hx0 hy0 e => by
      rw [h.len] at e
      exact hres2 x hx y hy hx0 hy0 (hash_inj ha (h64 x hx) (h64 y hy) (by omega) e)) (hash64 a k % arr.length)
      (Nat.mod_lt _ hn) (by rwa [sl_mod])
    rw [sl_mod, h.len] at h1
    exact hxk (hres1 _ hm hx0 (hash_inj ha (h64 _ hm) hk64 (by omega) h1))

/-- One insertion: it returns whether the key is new; the table grows only to a size for which the residues of the keys
are distinct or to four times the number of keys; and it grows until the keys with the same residue are not too many. -/
theorem insert_solo {a q : Nat} (ha : Odd a) {k : Nat} (hk : k ≠ 0) (hk64 : k < 2 ^ 64) {hd : Nat} : ∀ (n p : Nat)
    (s : Shared) (arr : List Nat), max (2 ^ q) (4 * occ arr + 2) - 2 ^ p ≤ n → Quiet1 a p s arr → hd < s.hs.length →
    (∀ x ∈ arr, x < 2 ^ 64) →
    (∀ x ∈ arr, x ≠ 0 → x % 2 ^ q = k % 2 ^ q → x = k) →
    (∀ x ∈ arr, ∀ y ∈ arr, x ≠ 0 → y ≠ 0 → x % 2 ^ q = y % 2 ^ q → x = y) →
    ∃ s' p' arr', Quiet1 a p' s' arr' ∧ s'.hs.length = s.hs.length ∧ (∀ x, x ≠ 0 → (x ∈ arr' ↔ x ∈ arr ∨ x = k)) ∧
      2 ^ p' ≤ max (2 ^ p) (max (2 ^ q) (4 * occ arr + 2)) ∧
      (∀ (F : Finset Nat) (Q : Nat), 12 ≤ F.card → Q ≤ 64 → (∀ x ∈ F, x ≠ 0 ∧ ∀ y ∈ F, x % 2 ^ Q = y % 2 ^ Q) →
        Low F Q p arr → Low F Q p' arr') ∧
      Solo s (.ins0 hd k) s' (.bool (decide (k ∉ arr))) := by
  intro n
  induction n with
  | zero =>
    intro p s arr hM h hlt h64 hres1 hres2
    rcases round h hlt hk with ⟨s', arr', h1, h2, h3, h4, h5⟩ | ⟨s', arr', h1, h2, h3, h4, h5, h6⟩
    · exact put h hk ⟨s', arr', h1, h2, h3, h4, h5⟩
    · have := grows ha hk64 h h64 hk hres1 hres2 h5
      omega
  | succ n ih =>
    intro p s arr hM h hlt h64 hres1 hres2
    rcases round h hlt hk with ⟨s', arr', h1, h2, h3, h4, h5⟩ | ⟨s', arr', h1, h2, h3, h4, h5, h6⟩
    · exact put h hk ⟨s', arr', h1, h2, h3, h4, h5⟩
    · have hg := grows ha hk64 h h64 hk hres1 hres2 h5
      have hmem : ∀ x ∈ arr', x ≠ 0 → x ∈ arr := fun x hx hx0 => (h3 x hx0).1 hx
      obtain ⟨s2, p2, arr2, g1, g2, g3, g4, g5, g6⟩ := ih (p + 1) s' arr' (by rw [h4]; omega) h1 (by rw [h2]; exact hlt)
        (fun x hx => by
          by_cases hx0 : x = 0
          · subst hx0
            exact Nat.pow_pos (by omega)
          · exact h64 x (hmem x hx hx0))
        (fun x hx hx0 => hres1 x (hmem x hx hx0) hx0)
        (fun x hx y hy hx0 hy0 => hres2 x (hmem x hx hx0) y (hmem y hy hy0) hx0 hy0)
      refine ⟨s2, p2, arr2, g1, by rw [g2, h2], fun x hx => by rw [g3 x hx, h3 x hx], ?_, ?_, ?_⟩
      · rw [h4] at g4
        omega
      · intro F Q hF hQ hFr hlow
        refine g5 F Q hF hQ hFr (fun hsub => ?_)
        have := hlow (fun x hx => (h3 x (hFr x hx).1).1 (hsub x hx))
        omega
      · have e : decide (k ∉ arr') = decide (k ∉ arr) := decide_eq_decide.2 (not_congr (h3 k hk))
        rw [e] at g6
        exact h6.solo g6

/-- Insertions one after the other. -/
theorem calls_solo {a q : Nat} (ha : Odd a) : ∀ (ops : List (Nat × Nat)) (p : Nat) (s : Shared) (arr : List Nat) (n : Nat),
    Quiet1 a p s arr → (∀ o ∈ ops, o.1 < s.hs.length ∧ o.2 ≠ 0 ∧ o.2 < 2 ^ 64) →
    (∀ x ∈ arr, x < 2 ^ 64) →
    (∀ x ∈ arr ++ ops.map Prod.snd, ∀ y ∈ arr ++ ops.map Prod.snd, x ≠ 0 → y ≠ 0 → x % 2 ^ q = y % 2 ^ q → x = y) →
    (((arr ++ ops.map Prod.snd).toFinset.erase 0).card ≤ n) →
    ∃ s' p' arr', Calls s ops (firsts (arr.filter (· ≠ 0)) (ops.map Prod.snd)) s' ∧ Quiet1 a p' s' arr' ∧
      (∀ x, x ≠ 0 → (x ∈ arr' ↔ x ∈ arr ∨ x ∈ ops.map Prod.snd)) ∧
      2 ^ p' ≤ max (2 ^ p) (max (2 ^ q) (4 * n + 2)) ∧
      (∀ (F : Finset Nat) (Q : Nat), 12 ≤ F.card → Q ≤ 64 → (∀ x ∈ F, x ≠ 0 ∧ ∀ y ∈ F, x % 2 ^ Q = y % 2 ^ Q) →
        Low F Q p arr → Low F Q p' arr') := by
  intro ops
  induction ops with
  | nil =>
    intro p s arr n h _ _ _ _
    exact ⟨s, p, arr, .nil s, h, by simp, le_max_left _ _, fun _ _ _ _ _ h => h⟩
  | cons o ops ih =>
    obtain ⟨hd, k⟩ := o
    intro p s arr n h hops h64 hres hn
    obtain ⟨ho1, ho2, ho3⟩ := hops (hd, k) (by simp)
    simp only at ho1 ho2 ho3
    have hocc : occ arr ≤ n := by
      rw [h.path.occ_eq_card]
      refine le_trans (Finset.card_le_card ?_) hn
      intro x
      simp only [Finset.mem_erase, List.mem_toFinset, List.mem_append]
      exact fun hx => ⟨hx.1, Or.inl hx.2⟩
    obtain ⟨s1, p1, arr1, h1, h2, h3, h4, h5, h6⟩ := insert_solo (q := q) ha ho2 ho3 (hd := hd) _ p s arr le_rfl h ho1 h64
      (fun x hx hx0 => hres x (by simp [hx]) k (by simp) hx0 ho2)
      (fun x hx y hy => hres x (by simp [hx]) y (by simp [hy]))
    have hsub : ∀ x, x ≠ 0 → x ∈ arr1 ++ ops.map Prod.snd → x ∈ arr ++ (k :: ops.map Prod.snd) := by
      intro x hx
      rw [List.mem_append, h3 x hx, List.mem_append, List.mem_cons, or_assoc]
      exact id
    obtain ⟨s2, p2, arr2, g1, g2, g3, g4, g5⟩ := ih p1 s1 arr1 n h1 (by
        intro o ho
        rw [h2]
        exact hops o (List.mem_cons_of_mem _ ho)) (by
        intro x hx
        by_cases hx0 : x = 0
        · subst hx0
          exact Nat.pow_pos (by omega)
        · rcases (h3 x hx0).1 hx with e | e
          · exact h64 x e
          · subst e
            exact ho3) (by
        intro x hx y hy hx0 hy0
        exact hres x (by simpa using hsub x hx0 hx) y (by simpa using hsub y hy0 hy) hx0 hy0) (by
        refine le_trans (Finset.card_le_card ?_) hn
        intro x hx
        rw [Finset.mem_erase, List.mem_toFinset] at hx ⊢
        exact ⟨hx.1, hsub x hx.1 hx.2⟩)
    refine ⟨s2, p2, arr2, ?_, g2, ?_, ?_, fun F Q hF hQ hFr hl => g5 F Q hF hQ hFr (h5 F Q hF hQ hFr hl)⟩
    · have e1 : decide (k ∉ arr) = decide (k ∉ arr.filter (· ≠ 0)) := by
        refine decide_eq_decide.2 (not_congr ?_)
        simp [ho2]
      rw [e1] at h6
      refine .cons h6 ?_
      have e2 : ∀ (ks l l' : List Nat), (∀ x, x ∈ l ↔ x ∈ l') → firsts l ks = firsts l' ks := by
        intro ks
        induction ks with
        | nil => intros; rfl
        | cons y ks ih' =>
          intro l l' hl
          simp only [firsts]
          rw [ih' (y :: l) (y :: l') (by intro x; simp [hl x])]
          congr 2
          exact decide_eq_decide.2 (not_congr (hl y))
      rw [e2 _ (k :: arr.filter (· ≠ 0)) (arr1.filter (· ≠ 0)) (by
        intro x
        by_cases hx : x = 0
        · subst hx
          simp [Ne.symm ho2]
        · simp only [List.mem_cons, List.mem_filter, decide_eq_true_eq]
          rw [h3 x hx]
          simp only [ne_eq, hx, not_false_eq_true, and_true]
          exact or_comm)]
      exact g1
    · intro x hx
      rw [g3 x hx, h3 x hx, List.map_cons, List.mem_cons, or_assoc]
    · have : 4 * occ arr + 2 ≤ 4 * n + 2 := by omega
      omega

theorem quiet_new (a size m p : Nat) (hp : nextPow2 size = 2 ^ p) :
    Quiet1 a p (new a size m) (List.replicate (2 ^ p) 0) where
  tabs := ⟨[], by simp [new, ConcSet.new, hp, occ_replicate], rfl⟩
  ew := rfl
  tr := rfl
  hel := rfl
  mult := rfl
  len := by simp
  path := pathOk_replicate _ _
  hm := hm_replicate _ _
  hs := by
    intro h le lt hh
    have := List.eq_of_mem_replicate (List.mem_of_getElem? hh)
    injection this with h1 h2
    subst h1 h2
    exact ⟨rfl, le_rfl⟩

theorem Calls.unique {s s1 s2 : Shared} {ops : List (Nat × Nat)} {r1 r2 : List ConcSet.SetRet} (h1 : Calls s ops r1 s1)
    (h2 : Calls s ops r2 s2) : r1 = r2 ∧ s1 = s2 := by
  induction h1 generalizing r2 s2 with
  | nil s =>
    cases h2
    exact ⟨rfl, rfl⟩
  | cons h _ ih =>
    cases h2 with
    | cons h' h'' =>
      obtain ⟨rfl, rfl⟩ := h.unique h'
      obtain ⟨rfl, rfl⟩ := ih h''
      exact ⟨rfl, rfl⟩

/-- Calls made one after the other are an execution of the concurrent set, in which every call returns. -/
theorem Calls.reach {n : Nat} {s0 s s' : Shared} {ops : List (Nat × Nat)} {rs : List ConcSet.SetRet} (h : Calls s ops rs s')
    {ok : Op → Prop} (hok : ∀ o ∈ ops, ok (.insert o.1 o.2)) (t : Fin n) (c : Config n Shared Loc Op ConcSet.SetRet)
    (hc : Reach obj ok s0 c) (hs : c.sh = s) (ht : c.th t = none) :
    ∃ c' : Config n Shared Loc Op ConcSet.SetRet, Reach obj ok s0 c' ∧ c'.sh = s' ∧ c'.th = c.th ∧
      c'.hist = c.hist ++ (List.zipWith (fun o r => [Ev.inv t (.insert o.1 o.2), Ev.res t (.insert o.1 o.2) r]) ops rs).flatten := by
  induction h generalizing c with
  | nil s => exact ⟨c, hc, hs, rfl, by simp⟩
  | @cons s s1 s2 hd k ops r rs hsolo _ ih =>
    obtain ⟨s3, l3, hgo, hret⟩ := hsolo
    let A0 : Active Loc Op := ⟨.insert hd k, start (.insert hd k), 0⟩
    let c1 : Config n Shared Loc Op ConcSet.SetRet :=
      { c with th := Function.update c.th t (some A0), hist := c.hist ++ [.inv t (.insert hd k)] }
    have hc1 : Reach obj ok s0 c1 := .step hc (.call c t _ ht (hok (hd, k) (by simp)))
    have key : ∀ y : Shared × Loc, Relation.ReflTransGen SStep (s, start (.insert hd k)) y →
        ∃ m, Reach obj ok s0 (Config.mk y.1 (Function.update c.th t (some (Active.mk (.insert hd k) y.2 m)))
          (c.hist ++ [.inv t (.insert hd k)])) := by
      intro y hy
      induction hy with
      | refl =>
        refine ⟨0, ?_⟩
        have := hc1
        simp only [c1, hs] at this
        exact this
      | @tail y1 y2 _ h1 ih1 =>
        obtain ⟨m, ih1⟩ := ih1
        refine ⟨m + 1, ?_⟩
        have := Reach.step ih1 (.internal _ t (Active.mk (.insert hd k) y1.2 m) y2.1 y2.2 (by simp) h1)
        simpa using this
    obtain ⟨m, hm⟩ := key (s3, l3) hgo
    have h4 := Reach.step hm (.ret _ t (Active.mk (.insert hd k) l3 m) _ r (by simp) hret)
    simp only [Function.update_idem] at h4
    have e : Function.update c.th t none = c.th := by
      rw [← ht]
      exact Function.update_eq_self t c.th
    rw [e] at h4
    obtain ⟨c', g1, g2, g3, g4⟩ := ih (fun o ho => hok o (List.mem_cons_of_mem _ ho)) _ h4 rfl ht
    refine ⟨c', g1, g2, g3, ?_⟩
    rw [g4]
    simp

/-- **C114: calls that do not overlap return.** Insertions of ids by any handles, one after the other, all return, whatever the
odd multiplier, and answer whether the id is new; afterwards the current table contains exactly the ids. -/
theorem C114_returns (a size m : Nat) (ha : Odd a) (hsz : 0 < size) (ops : List (Nat × Nat))
    (hops : ∀ o ∈ ops, o.1 < m ∧ o.2 ≠ 0 ∧ o.2 < 2 ^ 64) :
    ∃ s', Calls (new a size m) ops (firsts [] (ops.map Prod.snd)) s' ∧
      ∃ tb, s'.tabs[s'.tr]? = some tb ∧ (tb.t.arr.filter (· ≠ 0)).Nodup ∧
        (tb.t.arr.filter (· ≠ 0)).toFinset = (ops.map Prod.snd).toFinset := by
  obtain ⟨p, hp⟩ := nextPow2_isPow hsz
  have hz : ∀ x ∈ List.replicate (2 ^ p) 0, x = 0 := fun x hx => List.eq_of_mem_replicate hx
  have hrep : (List.replicate (2 ^ p) 0).filter (· ≠ 0) = ([] : List Nat) := by
    rw [List.filter_eq_nil_iff]
    intro x hx
    simp [hz x hx]
  have hlt : ∀ x ∈ List.replicate (2 ^ p) 0 ++ ops.map Prod.snd, x < 2 ^ 64 := by
    intro x hx
    rcases List.mem_append.1 hx with h | h
    · rw [hz x h]
      exact Nat.pow_pos (by omega)
    · obtain ⟨o, ho, rfl⟩ := List.mem_map.1 h
      exact (hops o ho).2.2
  obtain ⟨s', p', arr', h1, h2, h3, _, _⟩ := calls_solo (q := 64) ha ops p (new a size m) _ _ (quiet_new a size m p hp)
    (by simpa [new] using hops) (fun x hx => hlt x (List.mem_append_left _ hx))
    (fun x hx y hy _ _ e => by rwa [Nat.mod_eq_of_lt (hlt x hx), Nat.mod_eq_of_lt (hlt y hy)] at e) le_rfl
  rw [hrep] at h1
  refine ⟨s', h1, _, by rw [h2.tr]; exact h2.get, ?_, ?_⟩
  · have := h2.path.nodup
    have e : (fun x : Nat => decide (x ≠ 0)) = fun x => x != 0 := by
      funext x
      by_cases hx : x = 0 <;> simp [hx]
    rw [e]
    exact this
  · ext x
    simp only [List.mem_toFinset, List.mem_filter, decide_eq_true_eq]
    constructor
    · rintro ⟨h4, h5⟩
      rcases (h3 x h5).1 h4 with h6 | h6
      · exact absurd (hz x h6) h5
      · exact h6
    · intro h4
      obtain ⟨o, ho, rfl⟩ := List.mem_map.1 h4
      exact ⟨(h3 _ (hops o ho).2.1).2 (Or.inr h4), (hops o ho).2.1⟩

/-- Three insertions by two handles into a set with one slot. -/
example : ∃ s', Calls (new 7 1 2) [(0, 5), (1, 9), (0, 5)] [.bool true, .bool true, .bool false] s' := by
  obtain ⟨s', h, _⟩ := C114_returns 7 1 2 (by decide) (by decide) [(0, 5), (1, 9), (0, 5)] (by decide)
  exact ⟨s', h⟩

/-- **C114: executions.** The calls of `C114_returns` are an execution of the concurrent set in which one thread calls: every
call of the history is answered, and the set is in the state in which the calls end. -/
theorem C114_execution (a size m n : Nat) (t : Fin n) (ha : Odd a) (hsz : 0 < size) (ops : List (Nat × Nat))
    (hops : ∀ o ∈ ops, o.1 < m ∧ o.2 ≠ 0 ∧ o.2 < 2 ^ 64) {ok : Op → Prop} (hok : ∀ o ∈ ops, ok (.insert o.1 o.2)) :
    ∃ c : Config n Shared Loc Op ConcSet.SetRet, Reach obj ok (new a size m) c ∧ (∀ u, c.th u = none) ∧
      c.hist = (List.zipWith (fun o r => [Ev.inv t (.insert o.1 o.2), Ev.res t (.insert o.1 o.2) r]) ops
        (firsts [] (ops.map Prod.snd))).flatten := by
  obtain ⟨s', h, _⟩ := C114_returns a size m ha hsz ops hops
  obtain ⟨c, h1, _, h3, h4⟩ := h.reach hok t _ .init rfl rfl
  exact ⟨c, h1, fun u => by rw [h3]; rfl, by rw [h4]; rfl⟩

example : ∃ c : Config 3 Shared Loc Op ConcSet.SetRet, Reach obj (fun _ => True) (new 7 1 2) c ∧ (∀ u, c.th u = none) ∧
    c.hist = [.inv 1 (.insert 0 5), .res 1 (.insert 0 5) (.bool true), .inv 1 (.insert 1 5), .res 1 (.insert 1 5) (.bool false)] :=
  C114_execution 7 1 2 3 1 (by decide) (by decide) [(0, 5), (1, 5)] (by decide) (fun _ _ => trivial)

/-- **C114 (partial): memory.** If the ids have distinct residues modulo `2^q`, for example because they are less than `2^q`, the
current table has at most `2^q` slots, or four times as many slots as there are ids and two more, or the number of slots at
the beginning, whatever the odd multiplier.
Missing: the bound by the number of ids alone does not hold (`C114_violated`). -/
theorem C114_memory_partial (a size m q : Nat) (ha : Odd a) (hsz : 0 < size) (ops : List (Nat × Nat))
    (hops : ∀ o ∈ ops, o.1 < m ∧ o.2 ≠ 0 ∧ o.2 < 2 ^ 64)
    (hres : ∀ o ∈ ops, ∀ o' ∈ ops, o.2 % 2 ^ q = o'.2 % 2 ^ q → o.2 = o'.2) (rs : List ConcSet.SetRet) (s' : Shared)
    (hc : Calls (new a size m) ops rs s') :
    slots s' ≤ max (nextPow2 size) (max (2 ^ q) (4 * (ops.map Prod.snd).toFinset.card + 2)) := by
  obtain ⟨p, hp⟩ := nextPow2_isPow hsz
  have hz : ∀ x ∈ List.replicate (2 ^ p) 0, x = 0 := fun x hx => List.eq_of_mem_replicate hx
  have hin : ∀ x ∈ List.replicate (2 ^ p) 0 ++ ops.map Prod.snd, x ≠ 0 → ∃ o ∈ ops, o.2 = x := by
    intro x hx hx0
    rcases List.mem_append.1 hx with h | h
    · exact absurd (hz x h) hx0
    · obtain ⟨o, ho, rfl⟩ := List.mem_map.1 h
      exact ⟨o, ho, rfl⟩
  obtain ⟨s1, p', arr', h1, h2, h3, h4, _⟩ := calls_solo (q := q) ha ops p (new a size m) _ (ops.map Prod.snd).toFinset.card
    (quiet_new a size m p hp) (by simpa [new] using hops) (fun x hx => by rw [hz x hx]; exact Nat.pow_pos (by omega))
    (fun x hx y hy hx0 hy0 e => by
      obtain ⟨o, ho, rfl⟩ := hin x hx hx0
      obtain ⟨o', ho', rfl⟩ := hin y hy hy0
      exact hres o ho o' ho' e) (by
      refine Finset.card_le_card ?_
      intro x hx
      rw [Finset.mem_erase, List.mem_toFinset] at hx
      obtain ⟨o, ho, rfl⟩ := hin x hx.2 hx.1
      exact List.mem_toFinset.2 (List.mem_map.2 ⟨o, ho, rfl⟩))
  obtain ⟨_, rfl⟩ := hc.unique h1
  rw [h2.slots, hp]
  exact h4

/-- Forty ids less than 64: at most 162 slots. -/
example (rs : List ConcSet.SetRet) (s' : Shared)
    (hc : Calls (new 9 1 1) ((List.range 40).map fun j => (0, j + 1)) rs s') : slots s' ≤ 162 :=
  C114_memory_partial 9 1 1 6 (by decide) (by decide) _ (by decide) (by decide +kernel) rs s' hc

/-- **C114: what twelve ids do.** If twelve of the ids have the same residue modulo `2^q`, the table has more than `2^q` slots at
the end, whatever the odd multiplier and however few ids there are. -/
theorem C114_collisions (a size m q : Nat) (ha : Odd a) (hsz : 0 < size) (hq : q ≤ 64) (ops : List (Nat × Nat))
    (hops : ∀ o ∈ ops, o.1 < m ∧ o.2 ≠ 0 ∧ o.2 < 2 ^ 64) (F : Finset Nat) (hF : F.card = 12)
    (hFo : ∀ x ∈ F, x ∈ ops.map Prod.snd) (hFr : ∀ x ∈ F, ∀ y ∈ F, x % 2 ^ q = y % 2 ^ q) (rs : List ConcSet.SetRet)
    (s' : Shared) (hc : Calls (new a size m) ops rs s') : 2 ^ q < slots s' := by
  obtain ⟨p, hp⟩ := nextPow2_isPow hsz
  have hz : ∀ x ∈ List.replicate (2 ^ p) 0, x = 0 := fun x hx => List.eq_of_mem_replicate hx
  have hlt : ∀ x ∈ List.replicate (2 ^ p) 0 ++ ops.map Prod.snd, x < 2 ^ 64 := by
    intro x hx
    rcases List.mem_append.1 hx with h | h
    · rw [hz x h]
      exact Nat.pow_pos (by omega)
    · obtain ⟨o, ho, rfl⟩ := List.mem_map.1 h
      exact (hops o ho).2.2
  obtain ⟨s1, p', arr', h1, h2, h3, _, h5⟩ := calls_solo (q := 64) ha ops p (new a size m) _ _ (quiet_new a size m p hp)
    (by simpa [new] using hops) (fun x hx => hlt x (List.mem_append_left _ hx))
    (fun x hx y hy _ _ e => by rwa [Nat.mod_eq_of_lt (hlt x hx), Nat.mod_eq_of_lt (hlt y hy)] at e) le_rfl
  obtain ⟨_, rfl⟩ := hc.unique h1
  have hF0 : ∀ x ∈ F, x ≠ 0 := by
    intro x hx
    obtain ⟨o, ho, rfl⟩ := List.mem_map.1 (hFo x hx)
    exact (hops o ho).2.1
  have := h5 F q (by omega) hq (fun x hx => ⟨hF0 x hx, hFr x hx⟩) (fun hsub => by
    obtain ⟨x, hx⟩ : F.Nonempty := Finset.card_pos.1 (by omega)
    exact absurd (hz x (hsub x hx)) (hF0 x hx)) (fun x hx => (h3 x (hF0 x hx)).2 (Or.inr (hFo x hx)))
  rw [h2.slots]
  exact Nat.pow_lt_pow_right (by omega) this

/-- The ids `3, 1027, 2051, ...` of a column of a grid with rows of 1024 points. -/
example (rs : List ConcSet.SetRet) (s' : Shared)
    (hc : Calls (new 9 1 1) ((List.range 12).map fun j => (0, 1024 * j + 3)) rs s') : 1024 < slots s' :=
  C114_collisions 9 1 1 10 (by decide) (by decide) (by decide) _ (by decide)
    ((Finset.range 12).image fun j => 1024 * j + 3) (by decide +kernel) (by decide +kernel) (by decide +kernel) rs s' hc

/-- **C114 is violated: the memory is not bounded by the number of ids.** For every bound up to `2^60` and every odd multiplier,
the twelve insertions of the multiples `2^q, ..., 12 * 2^q` return, and the table has more than `2^q` slots then. -/
theorem C114_violated (a size q : Nat) (ha : Odd a) (hsz : 0 < size) (hq : q ≤ 60) :
    ∃ rs s', Calls (new a size 1) ((List.range 12).map fun j => (0, (j + 1) * 2 ^ q)) rs s' ∧ 2 ^ q < slots s' := by
  have hpos : 0 < 2 ^ q := Nat.pow_pos (by omega)
  have hb : 2 ^ q ≤ 2 ^ 60 := Nat.pow_le_pow_right (by omega) hq
  have hops : ∀ o ∈ (List.range 12).map fun j => (0, (j + 1) * 2 ^ q), o.1 < 1 ∧ o.2 ≠ 0 ∧ o.2 < 2 ^ 64 := by
    intro o ho
    obtain ⟨j, hj, rfl⟩ := List.mem_map.1 ho
    have hj := List.mem_range.1 hj
    refine ⟨by omega, (Nat.mul_pos (by omega) hpos).ne', ?_⟩
    calc (j + 1) * 2 ^ q ≤ 12 * 2 ^ 60 := Nat.mul_le_mul (by omega) hb
      _ < 2 ^ 64 := by norm_num
  obtain ⟨s', h1, _⟩ := C114_returns a size 1 ha hsz _ hops
  refine ⟨_, s', h1, C114_collisions a size 1 q ha hsz (by omega) _ hops ((Finset.range 12).image fun j => (j + 1) * 2 ^ q) ?_ ?_ ?_ _ s' h1⟩
  · rw [Finset.card_image_of_injective]
    · simp
    · intro i j h
      have := Nat.eq_of_mul_eq_mul_right hpos h
      omega
  · intro x hx
    obtain ⟨j, hj, rfl⟩ := Finset.mem_image.1 hx
    have hj := Finset.mem_range.1 hj
    simp only [List.map_map, List.mem_map, List.mem_range]
    exact ⟨j, hj, rfl⟩
  · intro x hx y hy
    obtain ⟨i, _, rfl⟩ := Finset.mem_image.1 hx
    obtain ⟨j, _, rfl⟩ := Finset.mem_image.1 hy
    simp

example : ∃ rs s', Calls (new 9 1 1) ((List.range 12).map fun j => (0, (j + 1) * 2 ^ 50)) rs s' ∧ 2 ^ 50 < slots s' :=
  C114_violated 9 1 50 (by decide) (by decide) (by decide)

end Growing
end Verif
