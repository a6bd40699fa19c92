import Verif.Model.BlockedArray2
import Mathlib.Data.List.Basic
import Mathlib.Tactic.Push
import Mathlib.Tactic.Ring

/-!
# Lemmas about the blocked array
-/
namespace Verif

theorem Returns.shift {α : Type _} {f g : Nat → Res α} {a : α} (h : Returns g a)
    (hfg : ∀ n, f (n + 1) = g n) : Returns f a := by
  obtain ⟨n, hn⟩ := h
  refine ⟨n + 1, fun m hm => ?_⟩
  obtain ⟨k, rfl⟩ : ∃ k, m = k + 1 := ⟨m - 1, by omega⟩
  rw [hfg]
  exact hn k (by omega)

namespace BA2
variable {α : Type}

/-- Non-empty, sorted, disjoint blocks with as many elements as ids. -/
structure WF (bs : List (Block α)) : Prop where
  ne : bs ≠ []
  sorted : bs.Pairwise fun a b => a.max ≤ b.min
  pos : ∀ b ∈ bs, b.min < b.max
  len : ∀ b ∈ bs, b.data.length = b.max - b.min

/-- `f` lists the contents of the blocks. -/
def Holds (bs : List (Block α)) (f : Nat → Option α) : Prop :=
  ∀ i v, f i = some v ↔ ∃ b ∈ bs, b.min ≤ i ∧ i < b.max ∧ b.get i = some v

theorem contains_iff (b : Block α) (i : Nat) : b.contains i = true ↔ b.min ≤ i ∧ i < b.max := by
  simp [Block.contains]

theorem WF.lt {bs : List (Block α)} (h : WF bs) {i j : Nat} {a b : Block α}
    (hi : bs[i]? = some a) (hj : bs[j]? = some b) (hij : i < j) : a.max ≤ b.min := by
  obtain ⟨hi', rfl⟩ := List.getElem?_eq_some_iff.mp hi
  obtain ⟨hj', rfl⟩ := List.getElem?_eq_some_iff.mp hj
  exact List.pairwise_iff_getElem.mp h.sorted i j hi' hj' hij

theorem WF.posAt {bs : List (Block α)} (h : WF bs) {i : Nat} {a : Block α}
    (hi : bs[i]? = some a) : a.min < a.max := h.pos a (List.mem_of_getElem? hi)

theorem WF.lenAt {bs : List (Block α)} (h : WF bs) {i : Nat} {a : Block α}
    (hi : bs[i]? = some a) : a.data.length = a.max - a.min := h.len a (List.mem_of_getElem? hi)

theorem WF.unique {bs : List (Block α)} (h : WF bs) {i j x : Nat} {a b : Block α}
    (hi : bs[i]? = some a) (hj : bs[j]? = some b) (ha : a.min ≤ x) (ha' : x < a.max)
    (hb : b.min ≤ x) (hb' : x < b.max) : i = j := by
  rcases Nat.lt_trichotomy i j with hl | he | hl
  · have := h.lt hi hj hl; omega
  · exact he
  · have := h.lt hj hi hl; omega

theorem get_some {b : Block α} {i : Nat} (hl : b.data.length = b.max - b.min) (h1 : b.min ≤ i)
    (h2 : i < b.max) : ∃ v, b.get i = some v := by
  unfold Block.get
  rw [if_pos h1]
  exact ⟨_, List.getElem?_eq_getElem (by omega)⟩

theorem get_none_lt {b : Block α} {i : Nat} (h : i < b.min) : b.get i = none := by
  unfold Block.get
  rw [if_neg (by omega)]

/-- Outcome of the binary search. -/
theorem findLoop_spec {bs : List (Block α)} (h : WF bs) (idx : Nat) :
    ∀ (count start : Nat), start + count ≤ bs.length →
    (∀ j b, j < start → bs[j]? = some b → b.max ≤ idx) →
    (∀ j b, start + count ≤ j → bs[j]? = some b → idx < b.min) →
    ∃ s, findLoop bs idx start count = some s ∧
      ((∃ b, bs[s]? = some b ∧ b.min ≤ idx ∧ idx < b.max) ∨
       (s ≤ bs.length ∧ (∀ j b, j < s → bs[j]? = some b → b.max ≤ idx) ∧
        (∀ j b, s ≤ j → bs[j]? = some b → idx < b.min))) := by
  intro count
  induction count using Nat.strong_induction_on with
  | _ count ih =>
    intro start hle hlo hhi
    rw [findLoop]
    by_cases hc : count > 0
    · rw [dif_pos hc]
      have hit : start + count / 2 < bs.length := by omega
      have hb : bs[start + count / 2]? = some (bs[start + count / 2]) :=
        List.getElem?_eq_getElem hit
      simp only [hb]
      generalize hbb : bs[start + count / 2] = b at *
      have hp := h.posAt hb
      by_cases ht : b.contains idx = true
      · rw [if_pos ht]
        have := (contains_iff _ _).mp ht
        exact ⟨_, rfl, Or.inl ⟨b, hb, this⟩⟩
      · rw [if_neg ht]
        have ht' : ¬ (b.min ≤ idx ∧ idx < b.max) := fun hh => ht ((contains_iff _ _).mpr hh)
        by_cases hm : b.min < idx
        · rw [if_pos hm]
          refine ih _ (by omega) _ (by omega) ?_ ?_
          · intro j c hj hjc
            rcases Nat.eq_or_lt_of_le (Nat.lt_succ_iff.mp hj) with he | hl
            · subst he; rw [hb] at hjc; cases hjc; omega
            · have := h.lt hjc hb hl; omega
          · intro j c hj hjc
            exact hhi j c (by omega) hjc
        · rw [if_neg hm]
          refine ih _ (by omega) _ (by omega) hlo ?_
          intro j c hj hjc
          rcases Nat.eq_or_lt_of_le hj with he | hl
          · subst he; rw [hb] at hjc; cases hjc; omega
          · have := h.lt hb hjc hl; omega
    · rw [dif_neg hc]
      have : count = 0 := by omega
      subst this
      exact ⟨start, rfl, Or.inr ⟨by omega, hlo, fun j b hj => hhi j b (by omega)⟩⟩

theorem find_spec {bs : List (Block α)} (h : WF bs) (idx : Nat) :
    ∃ s, findLoop bs idx 0 bs.length = some s ∧
      ((∃ b, bs[s]? = some b ∧ b.min ≤ idx ∧ idx < b.max) ∨
       (s ≤ bs.length ∧ (∀ j b, j < s → bs[j]? = some b → b.max ≤ idx) ∧
        (∀ j b, s ≤ j → bs[j]? = some b → idx < b.min))) := by
  refine findLoop_spec h idx bs.length 0 (by omega) (fun j b hj => absurd hj (by omega)) ?_
  intro j b hj hb
  obtain ⟨h1, _⟩ := List.getElem?_eq_some_iff.mp hb
  omega

/-- An id in some block is located there, whatever the hint. -/
theorem locate_mem {bs : List (Block α)} (h : WF bs) {i hint k : Nat} {b : Block α}
    (hh : hint < bs.length) (hk : bs[k]? = some b) (h1 : b.min ≤ i) (h2 : i < b.max) :
    locate bs i hint = .val k := by
  unfold locate
  have hc : bs[hint]? = some bs[hint] := List.getElem?_eq_getElem hh
  simp only [hc]
  by_cases ht : (bs[hint]).contains i = true
  · rw [if_pos ht]
    have := (contains_iff _ _).mp ht
    rw [h.unique hc hk this.1 this.2 h1 h2]
  · rw [if_neg ht]
    unfold findBlock
    obtain ⟨s, hs, hs'⟩ := find_spec h i
    simp only [hs]
    rcases hs' with ⟨c, hc', hc1, hc2⟩ | ⟨_, ha, hb⟩
    · have e := h.unique hc' hk hc1 hc2 h1 h2
      subst e
      have : s < bs.length := (List.getElem?_eq_some_iff.mp hk).1
      have hne : s ≠ bs.length := by omega
      simp [hne]
    · exfalso
      rcases Nat.lt_or_ge k s with hl | hl
      · have := ha k b hl hk; omega
      · have := hb k b hl hk; omega

theorem Holds.isSome_iff {bs : List (Block α)} (h : WF bs) {f : Nat → Option α}
    (hf : Holds bs f) (i : Nat) :
    (f i).isSome ↔ ∃ (k : Nat) (b : Block α), bs[k]? = some b ∧ b.min ≤ i ∧ i < b.max := by
  constructor
  · intro hi
    obtain ⟨v, hv⟩ := Option.isSome_iff_exists.mp hi
    obtain ⟨b, hb, h1, h2, _⟩ := (hf i v).mp hv
    obtain ⟨k, hk⟩ := List.getElem?_of_mem hb
    exact ⟨k, b, hk, h1, h2⟩
  · rintro ⟨k, b, hb, h1, h2⟩
    obtain ⟨v, hv⟩ := get_some (h.lenAt hb) h1 h2
    rw [(hf i v).mpr ⟨b, List.mem_of_getElem? hb, h1, h2, hv⟩]
    rfl

theorem Holds.get {bs : List (Block α)} (h : WF bs) {f : Nat → Option α}
    (hf : Holds bs f) {i k : Nat} {b : Block α} (hb : bs[k]? = some b) (h1 : b.min ≤ i)
    (h2 : i < b.max) : b.get i = f i := by
  obtain ⟨v, hv⟩ := get_some (h.lenAt hb) h1 h2
  rw [hv, (hf i v).mpr ⟨b, List.mem_of_getElem? hb, h1, h2, hv⟩]

theorem read_mem {bs : List (Block α)} (h : WF bs) {f : Nat → Option α} (hf : Holds bs f)
    {i hint : Nat} {v : α} (hh : hint < bs.length) (hv : f i = some v) :
    read bs i hint = .val v := by
  obtain ⟨k, b, hk, h1, h2⟩ := (hf.isSome_iff h i).mp (by rw [hv]; rfl)
  have hg := hf.get h hk h1 h2
  unfold read
  simp only [locate_mem h hh hk h1 h2, hk, Option.bind_some, hg, hv]

/-- Lookup of an id in no block. -/
theorem locate_not_mem {bs : List (Block α)} (h : WF bs) {i hint : Nat}
    (hh : hint < bs.length) (hn : ∀ (k : Nat) (b : Block α), bs[k]? = some b → ¬ (b.min ≤ i ∧ i < b.max)) :
    (locate bs i hint = .thrown ∧ ∀ b ∈ bs, b.max ≤ i) ∨
    ∃ (s : Nat) (b : Block α), locate bs i hint = .val s ∧ bs[s]? = some b ∧ i < b.min := by
  unfold locate
  have hc : bs[hint]? = some bs[hint] := List.getElem?_eq_getElem hh
  have ht : ¬ (bs[hint]).contains i = true := fun hh => hn _ _ hc ((contains_iff _ _).mp hh)
  simp only [hc]
  rw [if_neg ht]
  unfold findBlock
  obtain ⟨s, hs, hs'⟩ := find_spec h i
  simp only [hs]
  rcases hs' with ⟨c, hc', hc1, hc2⟩ | ⟨hle, ha, hb⟩
  · exact absurd ⟨hc1, hc2⟩ (hn _ _ hc')
  · rcases Nat.eq_or_lt_of_le hle with he | hl
    · left
      subst he
      refine ⟨by simp, fun b hb => ?_⟩
      obtain ⟨k, hk⟩ := List.getElem?_of_mem hb
      exact ha k b (List.getElem?_eq_some_iff.mp hk).1 hk
    · right
      have hk : bs[s]? = some bs[s] := List.getElem?_eq_getElem hl
      have hne : s ≠ bs.length := by omega
      exact ⟨s, bs[s], by simp [hne], hk, hb s _ (by omega) hk⟩

theorem read_not_mem {bs : List (Block α)} (h : WF bs) {f : Nat → Option α} (hf : Holds bs f)
    {i hint : Nat} (hh : hint < bs.length) (hv : f i = none) :
    (read bs i hint = .thrown ∧ ∀ b ∈ bs, b.max ≤ i) ∨
    (read bs i hint = .ub ∧ ∃ b ∈ bs, i < b.min) := by
  have hn : ∀ (k : Nat) (b : Block α), bs[k]? = some b → ¬ (b.min ≤ i ∧ i < b.max) := fun k b hk hh => by
    have := (hf.isSome_iff h i).mpr ⟨k, b, hk, hh⟩
    rw [hv] at this; cases this
  rcases locate_not_mem h hh hn with ⟨h1, h2⟩ | ⟨s, b, h1, h2, h3⟩
  · left; unfold read; simp only [h1]; exact ⟨trivial, h2⟩
  · right; unfold read
    simp only [h1, h2, Option.bind_some, get_none_lt h3]
    exact ⟨trivial, b, List.mem_of_getElem? h2, h3⟩

theorem contains_spec {bs : List (Block α)} (h : WF bs) {f : Nat → Option α} (hf : Holds bs f)
    {i hint : Nat} (hh : hint < bs.length) : contains bs i hint = .val (f i).isSome := by
  unfold contains
  have hc : bs[hint]? = some bs[hint] := List.getElem?_eq_getElem hh
  simp only [hc]
  by_cases ht : (bs[hint]).contains i = true
  · rw [if_pos ht]
    have := (hf.isSome_iff h i).mpr ⟨hint, _, hc, (contains_iff _ _).mp ht⟩
    rw [this]
  · rw [if_neg ht]
    unfold findBlock
    obtain ⟨s, hs, hs'⟩ := find_spec h i
    simp only [hs, Bool.and_false, Bool.false_eq_true, if_false]
    rcases hs' with ⟨c, hc', hc1, hc2⟩ | ⟨hle, ha, hb⟩
    · have hsl : s < bs.length := (List.getElem?_eq_some_iff.mp hc').1
      have := (hf.isSome_iff h i).mpr ⟨s, _, hc', hc1, hc2⟩
      rw [if_pos (by omega), this]
      simp only [hc', (contains_iff c i).mpr ⟨hc1, hc2⟩]
    · have hnone : (f i).isSome = false := by
        rw [Bool.eq_false_iff]
        intro hcon
        obtain ⟨k, b, hk, h1, h2⟩ := (hf.isSome_iff h i).mp hcon
        rcases Nat.lt_or_ge k s with hl | hl
        · have := ha k b hl hk; omega
        · have := hb k b hl hk; omega
      rw [hnone]
      rcases Nat.eq_or_lt_of_le hle with he | hl
      · rw [if_neg (by omega)]
      · have hk : bs[s]? = some bs[s] := List.getElem?_eq_getElem hl
        rw [if_pos (by omega)]
        simp only [hk]
        have := hb s _ (by omega) hk
        congr 1
        rw [Bool.eq_false_iff]
        intro hcon
        have := (contains_iff _ _).mp hcon
        omega

/-! ### Construction -/

theorem new_wf (dflt : α) {lo hi : Nat} (h : lo < hi) : WF [Block.new dflt lo hi] where
  ne := by simp
  sorted := by simp
  pos := by simpa [Block.new] using h
  len := by simp [Block.new]

theorem new_get (dflt : α) {lo hi i : Nat} (h1 : lo ≤ i) (h2 : i < hi) :
    (Block.new dflt lo hi).get i = some dflt := by
  have : i - lo < hi - lo := by omega
  simp [Block.new, Block.get, h1, this]

theorem new_holds (dflt : α) (lo hi : Nat) :
    Holds [Block.new dflt lo hi] (fun i => if lo ≤ i ∧ i < hi then some dflt else none) := by
  intro i v
  simp only [List.mem_singleton, exists_eq_left]
  have e1 : (Block.new dflt lo hi).min = lo := rfl
  have e2 : (Block.new dflt lo hi).max = hi := rfl
  rw [e1, e2]
  by_cases hc : lo ≤ i ∧ i < hi
  · rw [if_pos hc, new_get dflt hc.1 hc.2]
    simp [hc.1, hc.2]
  · rw [if_neg hc]
    constructor
    · intro hh; cases hh
    · rintro ⟨h1, h2, _⟩; exact absurd ⟨h1, h2⟩ hc

/-- Joining two disjoint arrays and sorting, for `addBlock` and `merge`. -/
theorem sort_wf {bs cs ds : List (Block α)} (hb : WF bs) (hc : WF cs) {f g : Nat → Option α}
    (hf : Holds bs f) (hg : Holds cs g) (hdis : ∀ i, f i = none ∨ g i = none)
    (hs : SortOf (bs ++ cs) ds) : WF ds := by
  obtain ⟨hp, hm⟩ := hs
  have hpos : ∀ b ∈ ds, b.min < b.max := fun b hb' => by
    rcases List.mem_append.mp (hp.mem_iff.mp hb') with hh | hh
    · exact hb.pos b hh
    · exact hc.pos b hh
  have hlen : ∀ b ∈ ds, b.data.length = b.max - b.min := fun b hb' => by
    rcases List.mem_append.mp (hp.mem_iff.mp hb') with hh | hh
    · exact hb.len b hh
    · exact hc.len b hh
  have hd : (bs ++ cs).Pairwise fun a b => a.max ≤ b.min ∨ b.max ≤ a.min := by
    rw [List.pairwise_append]
    refine ⟨hb.sorted.imp Or.inl, hc.sorted.imp Or.inl, fun a ha b hb' => ?_⟩
    by_contra hcon
    push Not at hcon
    have p1 := hb.pos a ha
    have p2 := hc.pos b hb'
    obtain ⟨x, hx1, hx2, hx3, hx4⟩ : ∃ x, a.min ≤ x ∧ x < a.max ∧ b.min ≤ x ∧ x < b.max :=
      ⟨max a.min b.min, by omega, by omega, by omega, by omega⟩
    obtain ⟨k, hk⟩ := List.getElem?_of_mem ha
    obtain ⟨k', hk'⟩ := List.getElem?_of_mem hb'
    have i1 := (hf.isSome_iff hb x).mpr ⟨k, a, hk, hx1, hx2⟩
    have i2 := (hg.isSome_iff hc x).mpr ⟨k', b, hk', hx3, hx4⟩
    rcases hdis x with h0 | h0
    · rw [h0] at i1; cases i1
    · rw [h0] at i2; cases i2
  have hd' : ds.Pairwise fun a b => a.max ≤ b.min ∨ b.max ≤ a.min :=
    (hp.pairwise_iff (fun {a b} h => h.symm)).mpr hd
  refine ⟨?_, ?_, hpos, hlen⟩
  · intro he
    rw [he] at hp
    have := hp.symm.eq_nil
    exact hb.ne (List.append_eq_nil_iff.mp this).1
  · rw [List.pairwise_iff_getElem] at hd' hm ⊢
    intro i j hi hj hij
    have h1 := hd' i j hi hj hij
    have h2 := hm i j hi hj hij
    have h3 := hpos _ (List.getElem_mem hi)
    have h4 := hpos _ (List.getElem_mem hj)
    omega

theorem sort_holds {bs cs ds : List (Block α)} {f g : Nat → Option α}
    (hf : Holds bs f) (hg : Holds cs g) (hdis : ∀ i, f i = none ∨ g i = none)
    (hs : SortOf (bs ++ cs) ds) : Holds ds (fun i => (f i).or (g i)) := by
  intro i v
  have hm : ∀ b, b ∈ ds ↔ b ∈ bs ∨ b ∈ cs := fun b => by
    rw [hs.1.mem_iff, List.mem_append]
  constructor
  · intro h
    simp only [Option.or_eq_some_iff] at h
    rcases h with h | ⟨_, h⟩
    · obtain ⟨b, hb, h'⟩ := (hf i v).mp h
      exact ⟨b, (hm b).mpr (Or.inl hb), h'⟩
    · obtain ⟨b, hb, h'⟩ := (hg i v).mp h
      exact ⟨b, (hm b).mpr (Or.inr hb), h'⟩
  · rintro ⟨b, hb, h'⟩
    simp only [Option.or_eq_some_iff]
    rcases (hm b).mp hb with hb | hb
    · exact Or.inl ((hf i v).mpr ⟨b, hb, h'⟩)
    · have hgi := (hg i v).mpr ⟨b, hb, h'⟩
      rcases hdis i with h0 | h0
      · exact Or.inr ⟨h0, hgi⟩
      · rw [h0] at hgi; cases hgi

/-- Effect of a successful assignment. -/
theorem write_some {bs bs' : List (Block α)} {f : Nat → Option α} (h : WF bs) (hf : Holds bs f)
    {i hint : Nat} {v : α} (hh : hint < bs.length) (hw : write bs i hint v = .val bs') :
    (f i).isSome ∧ ∃ (k : Nat) (b : Block α), bs[k]? = some b ∧ b.min ≤ i ∧ i < b.max ∧
      bs' = bs.set k { b with data := b.data.set (i - b.min) v } := by
  by_cases hi : (f i).isSome
  · refine ⟨hi, ?_⟩
    obtain ⟨k, b, hk, h1, h2⟩ := (hf.isSome_iff h i).mp hi
    refine ⟨k, b, hk, h1, h2, ?_⟩
    obtain ⟨w, hw'⟩ := get_some (h.lenAt hk) h1 h2
    simp only [write, locate_mem h hh hk h1 h2, hk, hw'] at hw
    injection hw with hw
    exact hw.symm
  · exfalso
    have hn : ∀ (k : Nat) (b : Block α), bs[k]? = some b → ¬ (b.min ≤ i ∧ i < b.max) := fun k b hk hh =>
      hi ((hf.isSome_iff h i).mpr ⟨k, b, hk, hh⟩)
    rcases locate_not_mem h hh hn with ⟨h1, h2⟩ | ⟨s, b, h1, h2, h3⟩
    · simp [write, h1] at hw
    · simp [write, h1, h2, get_none_lt h3] at hw

theorem write_ok {bs : List (Block α)} {f : Nat → Option α} (h : WF bs) (hf : Holds bs f)
    {i hint : Nat} (v : α) (hh : hint < bs.length) (hi : (f i).isSome) :
    ∃ bs', write bs i hint v = .val bs' := by
  obtain ⟨k, b, hk, h1, h2⟩ := (hf.isSome_iff h i).mp hi
  obtain ⟨w, hw'⟩ := get_some (h.lenAt hk) h1 h2
  refine ⟨bs.set k { b with data := b.data.set (i - b.min) v }, ?_⟩
  simp only [write, locate_mem h hh hk h1 h2, hk, hw']

theorem set_wf {bs : List (Block α)} (h : WF bs) {k : Nat} {b c : Block α} (hk : bs[k]? = some b)
    (e1 : c.min = b.min) (e2 : c.max = b.max) (e3 : c.data.length = b.data.length) :
    WF (bs.set k c) := by
  have hkl : k < bs.length := (List.getElem?_eq_some_iff.mp hk).1
  have hbk : bs[k] = b := (List.getElem?_eq_some_iff.mp hk).2
  have hmem : ∀ x ∈ bs.set k c, x ∈ bs ∨ x = c := fun x hx => List.mem_or_eq_of_mem_set hx
  refine ⟨?_, ?_, ?_, ?_⟩
  · intro he
    have : (bs.set k c).length = 0 := by rw [he]; rfl
    rw [List.length_set] at this
    omega
  · have := h.sorted
    rw [List.pairwise_iff_getElem] at this ⊢
    intro i j hi hj hij
    rw [List.length_set] at hi hj
    have hx := this i j hi hj hij
    rw [List.getElem_set, List.getElem_set]
    split <;> split
    · omega
    · rename_i e _; subst e; rw [hbk] at hx; rw [e2]; exact hx
    · rename_i _ e; subst e; rw [hbk] at hx; rw [e1]; exact hx
    · exact hx
  · intro x hx
    rcases hmem x hx with hx | hx
    · exact h.pos x hx
    · subst hx; rw [e1, e2]; exact h.posAt hk
  · intro x hx
    rcases hmem x hx with hx | hx
    · exact h.len x hx
    · subst hx; rw [e1, e2, e3]; exact h.lenAt hk

theorem write_holds {bs : List (Block α)} {f : Nat → Option α} (h : WF bs) (hf : Holds bs f)
    {i k : Nat} {b : Block α} {v : α} (hk : bs[k]? = some b) (h1 : b.min ≤ i) (h2 : i < b.max) :
    Holds (bs.set k { b with data := b.data.set (i - b.min) v })
      (fun j => if j = i then some v else f j) := by
  have hkl : k < bs.length := (List.getElem?_eq_some_iff.mp hk).1
  have hbk : bs[k] = b := (List.getElem?_eq_some_iff.mp hk).2
  set c : Block α := { b with data := b.data.set (i - b.min) v } with hcdef
  have hl := h.lenAt hk
  have cget : ∀ j, b.min ≤ j → j < b.max → c.get j = if j = i then some v else b.get j := by
    intro j hj1 hj2
    simp only [Block.get, hcdef]
    rw [if_pos hj1, if_pos hj1, List.getElem?_set]
    by_cases e : j = i
    · subst e; rw [if_pos rfl, if_pos rfl, if_pos (by omega)]
    · rw [if_neg (by omega), if_neg e]
  have hwf : WF (bs.set k c) := set_wf h hk rfl rfl (by simp [hcdef])
  have hck : (bs.set k c)[k]? = some c := by
    rw [List.getElem?_set_self hkl]
  intro j w
  simp only
  constructor
  · intro hj
    by_cases e : j = i
    · subst e
      rw [if_pos rfl] at hj
      refine ⟨c, List.mem_of_getElem? hck, h1, h2, ?_⟩
      rw [cget j h1 h2, if_pos rfl]; exact hj
    · rw [if_neg e] at hj
      obtain ⟨a, ha, p1, p2, p3⟩ := (hf j w).mp hj
      obtain ⟨m, hm⟩ := List.getElem?_of_mem ha
      by_cases hmk : m = k
      · subst hmk
        rw [hk] at hm; cases hm
        refine ⟨c, List.mem_of_getElem? hck, p1, p2, ?_⟩
        rw [cget j p1 p2, if_neg e]; exact p3
      · have : (bs.set k c)[m]? = some a := by
          rw [List.getElem?_set_ne (by omega)]; exact hm
        exact ⟨a, List.mem_of_getElem? this, p1, p2, p3⟩
  · rintro ⟨a, ha, p1, p2, p3⟩
    obtain ⟨m, hm⟩ := List.getElem?_of_mem ha
    by_cases hmk : m = k
    · subst hmk
      rw [hck] at hm; cases hm
      rw [cget j p1 p2] at p3
      by_cases e : j = i
      · rw [if_pos e] at p3 ⊢; exact p3
      · rw [if_neg e] at p3 ⊢
        exact (hf j w).mpr ⟨b, List.mem_of_getElem? hk, p1, p2, p3⟩
    · rw [List.getElem?_set_ne (by omega)] at hm
      by_cases e : j = i
      · subst e
        exact absurd (h.unique hm hk p1 p2 h1 h2) hmk
      · rw [if_neg e]
        exact (hf j w).mpr ⟨a, List.mem_of_getElem? hm, p1, p2, p3⟩

/-! ### Iterators -/

/-- Position of an element. -/
def In (bs : List (Block α)) (p : Pos) : Prop :=
  ∃ b, bs[p.blk]? = some b ∧ b.min ≤ p.idx ∧ p.idx < b.max

/-- Position of an element or the end. -/
def Legal (bs : List (Block α)) (p : Pos) : Prop := In bs p ∨ endPos bs = some p

theorem last_spec {bs : List (Block α)} (h : WF bs) :
    ∃ b, bs[bs.length - 1]? = some b ∧ bs.getLast? = some b ∧ top bs = some b.max ∧
      endPos bs = some { blk := bs.length - 1, idx := b.max } := by
  have hl : 0 < bs.length := List.length_pos_iff.mpr h.ne
  have e1 : bs[bs.length - 1]? = some bs[bs.length - 1] := List.getElem?_eq_getElem (by omega)
  have e2 : bs.getLast? = some bs[bs.length - 1] := by rw [List.getLast?_eq_getElem?, e1]
  exact ⟨_, e1, e2, by rw [top, e2]; rfl, by rw [endPos, e2]; rfl⟩

theorem In.lt_top {bs : List (Block α)} (h : WF bs) {p : Pos} (hp : In bs p) {t : Nat}
    (ht : top bs = some t) : p.idx < t := by
  obtain ⟨b, hb, _, h2⟩ := hp
  obtain ⟨l, hl1, _, hl3, _⟩ := last_spec h
  rw [hl3] at ht; cases ht
  have hlt : p.blk < bs.length := (List.getElem?_eq_some_iff.mp hb).1
  rcases Nat.eq_or_lt_of_le (show p.blk ≤ bs.length - 1 by omega) with he | hlt'
  · rw [he, hl1] at hb; cases hb; exact h2
  · have := h.lt hb hl1 hlt'
    have := h.posAt hl1
    omega

theorem Legal.le_top {bs : List (Block α)} (h : WF bs) {p : Pos} (hp : Legal bs p) {t : Nat}
    (ht : top bs = some t) : p.idx ≤ t := by
  rcases hp with hp | hp
  · exact Nat.le_of_lt (hp.lt_top h ht)
  · obtain ⟨l, _, _, hl3, hl4⟩ := last_spec h
    rw [hl3] at ht; cases ht
    rw [hl4] at hp; cases hp
    exact Nat.le_refl _

theorem Legal.in_of_lt {bs : List (Block α)} (h : WF bs) {p : Pos} (hp : Legal bs p) {t : Nat}
    (ht : top bs = some t) (hlt : p.idx < t) : In bs p := by
  rcases hp with hp | hp
  · exact hp
  · obtain ⟨l, _, _, hl3, hl4⟩ := last_spec h
    rw [hl3] at ht; cases ht
    rw [hl4] at hp; cases hp
    simp at hlt

/-- The block is determined by the index. -/
theorem Legal.inj {bs : List (Block α)} (h : WF bs) {p q : Pos} (hp : Legal bs p)
    (hq : Legal bs q) (he : p.idx = q.idx) : p = q := by
  obtain ⟨l, _, _, hl3, hl4⟩ := last_spec h
  rcases hp with hp | hp <;> rcases hq with hq | hq
  · obtain ⟨b, hb, h1, h2⟩ := hp
    obtain ⟨c, hc, h3, h4⟩ := hq
    rw [← he] at h3 h4
    have := h.unique hb hc h1 h2 h3 h4
    cases p; cases q; simp_all
  · have := hp.lt_top h hl3
    rw [hl4] at hq; cases hq; simp only at he; omega
  · have := hq.lt_top h hl3
    rw [hl4] at hp; cases hp; simp only at he; omega
  · rw [hp] at hq; cases hq; rfl

/-- A smaller index is in a smaller or the same block. -/
theorem Legal.blk_mono {bs : List (Block α)} (h : WF bs) {p q : Pos} (hp : Legal bs p)
    (hq : Legal bs q) (hl : p.idx < q.idx) : p.blk ≤ q.blk := by
  obtain ⟨l, hl1, _, hl3, hl4⟩ := last_spec h
  have hpi := hp.in_of_lt h hl3 (Nat.lt_of_lt_of_le hl (hq.le_top h hl3))
  obtain ⟨b, hb, h1, h2⟩ := hpi
  have hpl : p.blk < bs.length := (List.getElem?_eq_some_iff.mp hb).1
  rcases hq with hq | hq
  · obtain ⟨c, hc, h3, h4⟩ := hq
    by_contra hcon
    have := h.lt hc hb (by omega)
    omega
  · rw [hl4] at hq; cases hq
    simp only; omega

theorem Legal.lt_iff {bs : List (Block α)} (h : WF bs) {p q : Pos} (hp : Legal bs p)
    (hq : Legal bs q) : p.lt q = true ↔ p.idx < q.idx := by
  have e : p.lt q = true ↔ p.blk < q.blk ∨ p.blk = q.blk ∧ p.idx < q.idx := by simp [Pos.lt]
  rw [e]
  constructor
  · rintro (hlt | ⟨_, hlt⟩)
    · by_contra hcon
      rcases Nat.eq_or_lt_of_le (Nat.not_lt.mp hcon) with he | hl
      · rw [hp.inj h hq he.symm] at hlt; omega
      · have := hq.blk_mono h hp hl; omega
    · exact hlt
  · intro hlt
    rcases Nat.eq_or_lt_of_le (hp.blk_mono h hq hlt) with he | hl
    · exact Or.inr ⟨he, hlt⟩
    · exact Or.inl hl

/-- No id strictly between. -/
def NoneBetween (bs : List (Block α)) (lo hi : Nat) : Prop :=
  ∀ j, lo < j → j < hi → ∀ (k : Nat) (b : Block α), bs[k]? = some b → ¬ (b.min ≤ j ∧ j < b.max)

theorem incIdx_spec {bs : List (Block α)} (h : WF bs) {p : Pos} (hp : In bs p) :
    ∃ q, incIdx bs p = some q ∧ Legal bs q ∧ p.idx < q.idx ∧ NoneBetween bs p.idx q.idx := by
  obtain ⟨b, hb, h1, h2⟩ := hp
  have hlt : p.blk < bs.length := (List.getElem?_eq_some_iff.mp hb).1
  unfold incIdx
  simp only [hb]
  by_cases hc : b.max = p.idx + 1 ∧ p.blk < bs.length - 1
  · rw [if_pos hc]
    have hc' : bs[p.blk + 1]? = some bs[p.blk + 1] := List.getElem?_eq_getElem (by omega)
    simp only [hc']
    generalize bs[p.blk + 1] = c at hc'
    have hcp := h.posAt hc'
    have hbc := h.lt hb hc' (by omega)
    refine ⟨_, rfl, Or.inl ⟨c, hc', Nat.le_refl _, hcp⟩, by simp only; omega, ?_⟩
    intro j hj1 hj2 k d hd ⟨hd1, hd2⟩
    simp only at hj2
    rcases Nat.lt_or_ge p.blk k with hk | hk
    · rcases Nat.eq_or_lt_of_le hk with he | hl
      · rw [← he] at hd; rw [hc'] at hd; cases hd; omega
      · have := h.lt hc' hd hl; omega
    · rcases Nat.eq_or_lt_of_le hk with he | hl
      · rw [he] at hd; rw [hb] at hd; cases hd; omega
      · have := h.lt hd hb hl; omega
  · rw [if_neg hc]
    refine ⟨_, rfl, ?_, by simp, fun j hj1 hj2 => ?_⟩
    · by_cases hm : b.max = p.idx + 1
      · right
        obtain ⟨l, hl1, hl2, hl3, hl4⟩ := last_spec h
        have : p.blk = bs.length - 1 := by omega
        rw [this, hl1] at hb; cases hb
        rw [hl4, this, hm]
      · left
        exact ⟨b, hb, by simp only; omega, by simp only; omega⟩
    · simp only at hj2; omega

theorem deref_spec {bs : List (Block α)} (h : WF bs) {f : Nat → Option α} (hf : Holds bs f)
    {p : Pos} (hp : In bs p) : ∃ v, deref bs p = some v ∧ f p.idx = some v := by
  obtain ⟨b, hb, h1, h2⟩ := hp
  obtain ⟨v, hv⟩ := get_some (h.lenAt hb) h1 h2
  refine ⟨v, ?_, (hf _ v).mpr ⟨b, List.mem_of_getElem? hb, h1, h2, hv⟩⟩
  unfold deref
  rw [hb, Option.bind_some, hv]

theorem Holds.none_between {bs : List (Block α)} (h : WF bs) {f : Nat → Option α}
    (hf : Holds bs f) {lo hi j : Nat} (hn : NoneBetween bs lo hi) (h1 : lo < j) (h2 : j < hi) :
    f j = none := by
  by_contra hcon
  have : (f j).isSome := by rw [← Option.ne_none_iff_isSome]; exact hcon
  obtain ⟨k, b, hb, h3⟩ := (hf.isSome_iff h j).mp this
  exact hn j h1 h2 k b hb h3

theorem beginPos_spec {bs : List (Block α)} (h : WF bs) :
    ∃ p, beginPos bs = some p ∧ In bs p ∧ ∀ q, Legal bs q → p.idx ≤ q.idx := by
  obtain ⟨b, t, rfl⟩ := List.exists_cons_of_ne_nil h.ne
  have h0 : (b :: t)[0]? = some b := rfl
  have hp0 := h.posAt h0
  refine ⟨{ blk := 0, idx := b.min }, rfl, ⟨b, rfl, Nat.le_refl _, hp0⟩, ?_⟩
  have key : ∀ (k : Nat) (c : Block α), (b :: t)[k]? = some c → b.min ≤ c.min ∧ b.min ≤ c.max := by
    intro k c hc
    have := h.posAt hc
    rcases Nat.eq_zero_or_pos k with rfl | hk
    · cases hc; omega
    · have := h.lt h0 hc hk; omega
  rintro q (⟨c, hc, h1, h2⟩ | hq)
  · have := key _ _ hc; simp only; omega
  · obtain ⟨l, hl1, _, _, hl4⟩ := last_spec h
    rw [hl4] at hq; cases hq
    exact (key _ _ hl1).2

theorem endPos_spec {bs : List (Block α)} (h : WF bs) :
    ∃ e t, endPos bs = some e ∧ top bs = some t ∧ e.idx = t ∧ Legal bs e := by
  obtain ⟨l, _, _, hl3, hl4⟩ := last_spec h
  exact ⟨_, _, hl4, hl3, rfl, Or.inr hl4⟩

/-- Loop with the unfiltered iterator. -/
theorem forAll_spec {bs : List (Block α)} (h : WF bs) {f : Nat → Option α} (hf : Holds bs f)
    {e : Pos} (he : Legal bs e) :
    ∀ (d : Nat) (p : Pos), Legal bs p → p.idx ≤ e.idx → e.idx - p.idx ≤ d →
    ∃ l, Returns (fun n => forAll bs n p e) l ∧ l.Pairwise (fun a b => a.1 < b.1) ∧
      ∀ i v, (i, v) ∈ l ↔ p.idx ≤ i ∧ i < e.idx ∧ f i = some v := by
  intro d
  induction d with
  | zero =>
    intro p hp hle hd
    have : p = e := hp.inj h he (by omega)
    subst this
    refine ⟨[], ⟨1, fun m hm => ?_⟩, List.Pairwise.nil, fun i v => ?_⟩
    · obtain ⟨k, rfl⟩ : ∃ k, m = k + 1 := ⟨m - 1, by omega⟩
      simp [forAll]
    · simp only [List.not_mem_nil, false_iff]; omega
  | succ d ih =>
    intro p hp hle hd
    by_cases heq : p = e
    · subst heq
      refine ⟨[], ⟨1, fun m hm => ?_⟩, List.Pairwise.nil, fun i v => ?_⟩
      · obtain ⟨k, rfl⟩ : ∃ k, m = k + 1 := ⟨m - 1, by omega⟩
        simp [forAll]
      · simp only [List.not_mem_nil, false_iff]; omega
    · have hlt : p.idx < e.idx := by
        rcases Nat.eq_or_lt_of_le hle with h' | h'
        · exact absurd (hp.inj h he h') heq
        · exact h'
      obtain ⟨_, t, _, ht, _, _⟩ := endPos_spec h
      have hpin := hp.in_of_lt h ht (Nat.lt_of_lt_of_le hlt (he.le_top h ht))
      obtain ⟨q, hq, hql, hpq, hnb⟩ := incIdx_spec h hpin
      obtain ⟨v, hv, hfv⟩ := deref_spec h hf hpin
      have hqe : q.idx ≤ e.idx := by
        by_contra hcon
        rcases he with ⟨b, hb, h1, h2⟩ | he
        · exact hnb e.idx hlt (by omega) _ _ hb ⟨h1, h2⟩
        · have := hql.le_top h ht
          obtain ⟨e', t', he', ht', hee, _⟩ := endPos_spec h
          rw [he'] at he; cases he
          rw [ht'] at ht; cases ht
          omega
      obtain ⟨l, hl1, hl2, hl3⟩ := ih q hql hqe (by omega)
      refine ⟨(p.idx, v) :: l, ?_, ?_, ?_⟩
      · refine Returns.shift (hl1.map fun vs => (p.idx, v) :: vs) fun n => ?_
        simp only [forAll, if_neg heq, hv, hq, ofOpt, Res.bind_done]
      · rw [List.pairwise_cons]
        refine ⟨fun a ha => ?_, hl2⟩
        obtain ⟨i, w⟩ := a
        have := ((hl3 i w).mp ha).1
        simp only; omega
      · intro i w
        rw [List.mem_cons, hl3, Prod.mk.injEq]
        constructor
        · rintro (⟨rfl, rfl⟩ | ⟨h1, h2, h3⟩)
          · exact ⟨Nat.le_refl _, hlt, hfv⟩
          · exact ⟨by omega, h2, h3⟩
        · rintro ⟨h1, h2, h3⟩
          rcases Nat.eq_or_lt_of_le h1 with he' | hl'
          · left
            rw [← he', hfv] at h3
            injection h3 with h3
            exact ⟨he'.symm, h3.symm⟩
          · right
            refine ⟨?_, h2, h3⟩
            by_contra hcon
            rw [hf.none_between h hnb hl' (by omega)] at h3
            cases h3

/-- Position of a valid element, or the end. -/
def VLegal (bs : List (Block α)) (f : Nat → Option α) (valid : α → Bool) (p : Pos) : Prop :=
  (In bs p ∧ ∃ v, f p.idx = some v ∧ valid v = true) ∨ endPos bs = some p

theorem VLegal.legal {bs : List (Block α)} {f : Nat → Option α} {valid : α → Bool} {p : Pos}
    (h : VLegal bs f valid p) : Legal bs p := h.imp And.left id

theorem skip_spec {bs : List (Block α)} (h : WF bs) {f : Nat → Option α} (hf : Holds bs f)
    (valid : α → Bool) {t : Nat} (ht : top bs = some t) :
    ∀ (d : Nat) (p : Pos), Legal bs p → t - p.idx ≤ d →
    ∃ q, Returns (fun n => skip bs valid t n p) q ∧ VLegal bs f valid q ∧ p.idx ≤ q.idx ∧
      ∀ j v, p.idx ≤ j → j < q.idx → f j = some v → valid v = false := by
  obtain ⟨e, t', he, ht', het, _⟩ := endPos_spec h
  rw [ht] at ht'; cases ht'
  intro d
  induction d with
  | zero =>
    intro p hp hd
    have hge : ¬ p.idx < t := by omega
    have hpe : p = e := hp.inj h (Or.inr he) (by have := hp.le_top h ht; omega)
    refine ⟨p, Returns.shift (Returns.pure p) fun n => ?_, Or.inr (hpe ▸ he), Nat.le_refl _,
      fun j v _ _ => by omega⟩
    simp [skip, hge]
  | succ d ih =>
    intro p hp hd
    by_cases hlt : p.idx < t
    · have hpin := hp.in_of_lt h ht hlt
      obtain ⟨v, hv, hfv⟩ := deref_spec h hf hpin
      by_cases hval : valid v = true
      · refine ⟨p, Returns.shift (Returns.pure p) fun n => ?_, Or.inl ⟨hpin, v, hfv, hval⟩,
          Nat.le_refl _, fun j v _ _ => by omega⟩
        simp [skip, hlt, hv, ofOpt, hval]
      · obtain ⟨q, hq, hql, hpq, hnb⟩ := incIdx_spec h hpin
        obtain ⟨r, hr1, hr2, hr3, hr4⟩ := ih q hql (by omega)
        refine ⟨r, Returns.shift hr1 fun n => ?_, hr2, by omega, fun j w hj1 hj2 hj3 => ?_⟩
        · simp [skip, hlt, hv, ofOpt, hval, hq]
        · rcases Nat.eq_or_lt_of_le hj1 with e1 | l1
          · rw [← e1, hfv] at hj3
            injection hj3 with hj3
            rw [← hj3]
            simpa using hval
          · rcases Nat.lt_or_ge j q.idx with l2 | l2
            · rw [hf.none_between h hnb l1 l2] at hj3; cases hj3
            · exact hr4 j w l2 hj2 hj3
    · have hpe : p = e := hp.inj h (Or.inr he) (by have := hp.le_top h ht; omega)
      refine ⟨p, Returns.shift (Returns.pure p) fun n => ?_, Or.inr (hpe ▸ he), Nat.le_refl _,
        fun j v _ _ => by omega⟩
      simp [skip, hlt]

theorem advT_spec {bs : List (Block α)} (h : WF bs) {f : Nat → Option α} (hf : Holds bs f)
    (valid : α → Bool) {p : Pos} (hp : Legal bs p) :
    ∃ q, Returns (fun n => advT bs valid n p) q ∧ VLegal bs f valid q ∧ p.idx ≤ q.idx ∧
      ∀ j v, p.idx ≤ j → j < q.idx → f j = some v → valid v = false := by
  obtain ⟨e, t, he, ht, het, _⟩ := endPos_spec h
  obtain ⟨q, hq⟩ := skip_spec h hf valid ht _ p hp (Nat.le_refl _)
  refine ⟨q, ?_⟩
  simpa only [advT, ht, ofOpt, Res.bind_done] using hq

/-- Nothing valid lies before a legal valid position that is not before it. -/
theorem VLegal.le_of_none {bs : List (Block α)} (h : WF bs) {f : Nat → Option α}
    {valid : α → Bool} {q e : Pos} (hq : VLegal bs f valid q) (he : VLegal bs f valid e) {lo : Nat}
    (hlo : lo ≤ e.idx) (hn : ∀ j v, lo ≤ j → j < q.idx → f j = some v → valid v = false) :
    q.idx ≤ e.idx := by
  by_contra hcon
  rcases he with ⟨_, v, hv, hvv⟩ | he
  · have := hn e.idx v hlo (by omega) hv
    rw [hvv] at this; cases this
  · obtain ⟨e', t, he', ht, het, _⟩ := endPos_spec h
    rw [he'] at he; cases he
    have := hq.legal.le_top h ht
    omega

theorem forValid_spec {bs : List (Block α)} (h : WF bs) {f : Nat → Option α} (hf : Holds bs f)
    (valid : α → Bool) {e : Pos} (he : VLegal bs f valid e) :
    ∀ (d : Nat) (p : Pos), VLegal bs f valid p → p.idx ≤ e.idx → e.idx - p.idx ≤ d →
    ∃ l, Returns (fun n => forValid bs valid n p e) l ∧ l.Pairwise (fun a b => a.1 < b.1) ∧
      ∀ i v, (i, v) ∈ l ↔ p.idx ≤ i ∧ i < e.idx ∧ f i = some v ∧ valid v = true := by
  have nilcase : ∀ p : Pos, p = e →
    ∃ l, Returns (fun n => forValid bs valid n p e) l ∧ l.Pairwise (fun a b => a.1 < b.1) ∧
      ∀ i v, (i, v) ∈ l ↔ p.idx ≤ i ∧ i < e.idx ∧ f i = some v ∧ valid v = true := by
    rintro p rfl
    refine ⟨[], ⟨1, fun m hm => ?_⟩, List.Pairwise.nil, fun i v => ?_⟩
    · obtain ⟨k, rfl⟩ : ∃ k, m = k + 1 := ⟨m - 1, by omega⟩
      simp [forValid]
    · simp only [List.not_mem_nil, false_iff]; omega
  intro d
  induction d with
  | zero =>
    intro p hp hle hd
    exact nilcase p (hp.legal.inj h he.legal (by omega))
  | succ d ih =>
    intro p hp hle hd
    by_cases heq : p = e
    · exact nilcase p heq
    · have hlt : p.idx < e.idx := by
        rcases Nat.eq_or_lt_of_le hle with h' | h'
        · exact absurd (hp.legal.inj h he.legal h') heq
        · exact h'
      obtain ⟨e', t, he', ht, het, _⟩ := endPos_spec h
      have hp' : In bs p ∧ ∃ v, f p.idx = some v ∧ valid v = true := by
        rcases hp with hp | hp
        · exact hp
        · rw [he'] at hp; cases hp
          have := he.legal.le_top h ht
          omega
      obtain ⟨hpin, v', hv', hvv⟩ := hp'
      obtain ⟨v, hv, hfv⟩ := deref_spec h hf hpin
      rw [hv'] at hfv; cases hfv
      obtain ⟨q0, hq0, hql, hpq, hnb⟩ := incIdx_spec h hpin
      obtain ⟨q, hq1, hq2, hq3, hq4⟩ := advT_spec h hf valid hql
      have hq0e : q0.idx ≤ e.idx := by
        by_contra hcon
        rcases he.legal with ⟨b, hb, h1, h2⟩ | he2
        · exact hnb e.idx hlt (by omega) _ _ hb ⟨h1, h2⟩
        · have := hql.le_top h ht
          rw [he'] at he2; cases he2
          omega
      have hqe := hq2.le_of_none h he hq0e hq4
      obtain ⟨l, hl1, hl2, hl3⟩ := ih q hq2 hqe (by omega)
      refine ⟨(p.idx, v') :: l, ?_, ?_, ?_⟩
      · refine Returns.shift (hq1.bind (g := fun n q => (forValid bs valid n q e).bind fun vs =>
          .done ((p.idx, v') :: vs)) (hl1.map fun vs => (p.idx, v') :: vs)) fun n => ?_
        simp only [forValid, if_neg heq, hv, next, hq0, ofOpt, Res.bind_done]
      · rw [List.pairwise_cons]
        refine ⟨fun a ha => ?_, hl2⟩
        obtain ⟨i, w⟩ := a
        have := ((hl3 i w).mp ha).1
        simp only; omega
      · intro i w
        rw [List.mem_cons, hl3, Prod.mk.injEq]
        constructor
        · rintro (⟨rfl, rfl⟩ | ⟨h1, h2, h3⟩)
          · exact ⟨Nat.le_refl _, hlt, hv', hvv⟩
          · exact ⟨by omega, h2, h3⟩
        · rintro ⟨h1, h2, h3, h4⟩
          rcases Nat.eq_or_lt_of_le h1 with he' | hl'
          · left
            rw [← he', hv'] at h3
            injection h3 with h3
            exact ⟨he'.symm, h3.symm⟩
          · right
            refine ⟨?_, h2, h3, h4⟩
            by_contra hcon
            rcases Nat.lt_or_ge i q0.idx with l1 | l1
            · rw [hf.none_between h hnb hl' l1] at h3; cases h3
            · rw [hq4 i w l1 (by omega) h3] at h4; cases h4

/-! ### Splitting -/

theorem decIdx_spec {bs : List (Block α)} (h : WF bs) {p b0 : Pos} (hp : Legal bs p)
    (hb0 : beginPos bs = some b0) (hgt : b0.idx < p.idx) :
    ∃ q, decIdx bs p = some q ∧ In bs q ∧ q.idx < p.idx ∧ b0.idx ≤ q.idx := by
  obtain ⟨b0', hb0', _, hmin⟩ := beginPos_spec h
  rw [hb0] at hb0'; cases hb0'
  suffices hs : ∃ q, decIdx bs p = some q ∧ In bs q ∧ q.idx < p.idx by
    obtain ⟨q, h1, h2, h3⟩ := hs
    exact ⟨q, h1, h2, h3, hmin q (Or.inl h2)⟩
  have hblk : ∃ b, bs[p.blk]? = some b ∧ b.min ≤ p.idx ∧ p.idx ≤ b.max := by
    rcases hp with ⟨b, hb, h1, h2⟩ | hp
    · exact ⟨b, hb, h1, by omega⟩
    · obtain ⟨l, hl1, _, _, hl4⟩ := last_spec h
      rw [hl4] at hp; cases hp
      exact ⟨l, hl1, Nat.le_of_lt (h.posAt hl1), Nat.le_refl _⟩
  obtain ⟨b, hb, h1, h2⟩ := hblk
  have hbl : p.blk < bs.length := (List.getElem?_eq_some_iff.mp hb).1
  unfold decIdx
  simp only [hb]
  by_cases hc : b.min = p.idx ∧ p.blk > 0
  · rw [if_pos hc]
    have hc' : bs[p.blk - 1]? = some bs[p.blk - 1] := List.getElem?_eq_getElem (by omega)
    simp only [hc']
    generalize bs[p.blk - 1] = c at hc'
    have hcp := h.posAt hc'
    have := h.lt hc' hb (by omega)
    rw [if_neg (by omega)]
    exact ⟨_, rfl, ⟨c, hc', by simp only; omega, by simp only; omega⟩, by simp only; omega⟩
  · rw [if_neg hc, if_neg (by omega)]
    have hmin' : b.min < p.idx := by
      by_contra hcon
      have he : b.min = p.idx := by omega
      have h0 : p.blk = 0 := by
        by_contra h0
        exact hc ⟨he, by omega⟩
      have : b0.idx = b.min := by
        rw [h0] at hb
        have e : bs.head? = some b := by rw [List.head?_eq_getElem?, hb]
        rw [beginPos, e] at hb0
        cases hb0; rfl
      omega
    exact ⟨_, rfl, ⟨b, hb, by simp only; omega, by simp only; omega⟩, by simp only; omega⟩

theorem skipBack_spec {bs : List (Block α)} (h : WF bs) {f : Nat → Option α} (hf : Holds bs f)
    (valid : α → Bool) {b0 : Pos} (hb0 : beginPos bs = some b0) :
    ∀ (d : Nat) (p : Pos), In bs p → p.idx ≤ d →
    ∃ q, Returns (fun n => skipBack bs valid b0.idx n p) q ∧ In bs q ∧ q.idx ≤ p.idx ∧
      (q.idx = b0.idx ∨ ∃ v, f q.idx = some v ∧ valid v = true) := by
  obtain ⟨b0', hb0', _, hmin⟩ := beginPos_spec h
  rw [hb0] at hb0'; cases hb0'
  intro d
  induction d with
  | zero =>
    intro p hp hd
    have := hmin p (Or.inl hp)
    have hng : ¬ p.idx > b0.idx := by omega
    exact ⟨p, Returns.shift (Returns.pure p) fun n => by simp [skipBack, hng], hp, Nat.le_refl _,
      Or.inl (by omega)⟩
  | succ d ih =>
    intro p hp hd
    have := hmin p (Or.inl hp)
    by_cases hng : p.idx > b0.idx
    · obtain ⟨v, hv, hfv⟩ := deref_spec h hf hp
      by_cases hval : valid v = true
      · exact ⟨p, Returns.shift (Returns.pure p) fun n => by simp [skipBack, hng, hv, ofOpt, hval],
          hp, Nat.le_refl _, Or.inr ⟨v, hfv, hval⟩⟩
      · obtain ⟨q, hq, hqi, hlt, _⟩ := decIdx_spec h (Or.inl hp) hb0 hng
        obtain ⟨r, hr1, hr2, hr3, hr4⟩ := ih q hqi (by omega)
        exact ⟨r, Returns.shift hr1 fun n => by simp [skipBack, hng, hv, ofOpt, hval, hq],
          hr2, by omega, hr4⟩
    · exact ⟨p, Returns.shift (Returns.pure p) fun n => by simp [skipBack, hng], hp, Nat.le_refl _,
        Or.inl (by omega)⟩

theorem half_spec {bs : List (Block α)} (h : WF bs) {f : Nat → Option α} (hf : Holds bs f)
    (valid : α → Bool) {b e : Pos} (hb : VLegal bs f valid b) (he : VLegal bs f valid e)
    (hlt : b.idx < e.idx) :
    ∃ m, Returns (fun n => half bs valid n b e) m ∧ VLegal bs f valid m ∧ b.idx ≤ m.idx ∧
      m.idx < e.idx := by
  obtain ⟨e', t, he', ht, het, hel⟩ := endPos_spec h
  obtain ⟨b0, hb0, hb0i, hmin⟩ := beginPos_spec h
  have hbin : In bs b := hb.legal.in_of_lt h ht (by have := he.legal.le_top h ht; omega)
  have hbv : ∃ v, f b.idx = some v ∧ valid v = true := by
    rcases hb with ⟨_, hv⟩ | hb
    · exact hv
    · rw [he'] at hb; cases hb
      have := he.legal.le_top h ht; omega
  set x := b.idx + (e.idx - b.idx) / 2 with hx
  have hx1 : b.idx ≤ x := by omega
  have hx2 : x < e.idx := by omega
  obtain ⟨s, hs, hs'⟩ := find_spec h x
  obtain ⟨l, hl1, _, hl3, _⟩ := last_spec h
  rw [ht] at hl3; injection hl3 with hl3
  -- the block found
  have hblk : ∃ c, bs[s]? = some c ∧ x < c.max ∧ max x c.min ≤ e.idx := by
    rcases hs' with ⟨c, hc, hc1, hc2⟩ | ⟨hle, ha, hb'⟩
    · exact ⟨c, hc, hc2, by omega⟩
    · have hsl : s < bs.length := by
        rcases Nat.eq_or_lt_of_le hle with hee | hl
        · exfalso
          have hlen : bs.length - 1 < s := by
            have := List.length_pos_iff.mpr h.ne; omega
          have := ha _ l hlen hl1
          have := he.legal.le_top h ht
          omega
        · exact hl
      have hc : bs[s]? = some bs[s] := List.getElem?_eq_getElem hsl
      have hcm := hb' s _ (Nat.le_refl _) hc
      refine ⟨_, hc, by have := h.posAt hc; omega, ?_⟩
      have : (bs[s]).min ≤ e.idx := by
        rcases he.legal with ⟨d, hd, hd1, hd2⟩ | hee
        · rcases Nat.lt_or_ge e.blk s with hl | hl
          · have := ha _ d hl hd; omega
          · rcases Nat.eq_or_lt_of_le hl with h' | h'
            · rw [← h', hc] at hd; cases hd; exact hd1
            · have := h.lt hc hd h'
              have := h.posAt hc
              omega
        · rw [he'] at hee; cases hee
          have hleg : Legal bs ⟨s, (bs[s]).min⟩ := Or.inl ⟨_, hc, Nat.le_refl _, h.posAt hc⟩
          have h1 := hleg.le_top h ht
          simp only at h1
          omega
      omega
  obtain ⟨c, hc, hc1, hc2⟩ := hblk
  have hcp := h.posAt hc
  have hstart : In bs { blk := s, idx := max x c.min } := ⟨c, hc, by simp only; omega, by simp only; omega⟩
  obtain ⟨m, hm1, hm2, hm3, hm4⟩ := advT_spec h hf valid (Or.inl hstart)
  have hme : m.idx ≤ e.idx := hm2.le_of_none h he hc2 hm4
  have hsl : s < bs.length := (List.getElem?_eq_some_iff.mp hc).1
  have hset : Returns (fun n => setIdx bs valid n x) m := by
    have : ∀ n, setIdx bs valid n x = advT bs valid n { blk := s, idx := max x c.min } := by
      intro n
      have hne : s ≠ bs.length := by omega
      simp [setIdx, findBlock, hs, hne, hc, ofOpt]
    simpa only [this] using hm1
  simp only at hm3
  by_cases hmeq : m = e
  · have hgt : b0.idx < m.idx := by
      have := hmin b hb.legal; rw [hmeq]; omega
    obtain ⟨q, hq, hqi, hql, _⟩ := decIdx_spec h hm2.legal hb0 hgt
    obtain ⟨r, hr1, hr2, hr3, hr4⟩ := skipBack_spec h hf valid hb0 _ q hqi (Nat.le_refl _)
    have hprev : Returns (fun n => prev bs valid n m) r := by
      simpa only [prev, hq, hb0, ofOpt, Res.bind_done] using hr1
    by_cases hrb : r.lt b = true
    · refine ⟨b, ?_, hb, Nat.le_refl _, hlt⟩
      refine hset.bind (g := fun n m => if m = e then (prev bs valid n m).bind fun m' =>
        if m'.lt b then .done b else .done m' else .done m) ?_
      simp only [if_pos hmeq]
      refine hprev.bind (g := fun n m' => if m'.lt b then .done b else .done m') ?_
      simp only [hrb, if_true]
      exact Returns.pure _
    · have hrl : Legal bs r := Or.inl hr2
      have hbr : b.idx ≤ r.idx := by
        by_contra hcon
        exact hrb ((hrl.lt_iff h hb.legal).mpr (by omega))
      refine ⟨r, ?_, ?_, hbr, by rw [hmeq] at hql; omega⟩
      · refine hset.bind (g := fun n m => if m = e then (prev bs valid n m).bind fun m' =>
          if m'.lt b then .done b else .done m' else .done m) ?_
        simp only [if_pos hmeq]
        refine hprev.bind (g := fun n m' => if m'.lt b then .done b else .done m') ?_
        simp only [hrb, if_false]
        exact Returns.pure _
      · left
        refine ⟨hr2, ?_⟩
        rcases hr4 with h0 | h0
        · have := hmin b hb.legal
          have : r.idx = b.idx := by omega
          rw [this]; exact hbv
        · exact h0
  · refine ⟨m, ?_, hm2, by omega, ?_⟩
    · refine hset.bind (g := fun n m => if m = e then (prev bs valid n m).bind fun m' =>
        if m'.lt b then .done b else .done m' else .done m) ?_
      simp only [if_neg hmeq]
      exact Returns.pure _
    · rcases Nat.eq_or_lt_of_le hme with h' | h'
      · exact absurd (hm2.legal.inj h he.legal h') hmeq
      · exact h'

/-- A legal range of valid positions. -/
structure RangeOk (bs : List (Block α)) (f : Nat → Option α) (valid : α → Bool) (r : Range) : Prop where
  b : VLegal bs f valid r.b
  e : VLegal bs f valid r.e
  mid : VLegal bs f valid r.mid
  le1 : r.b.idx ≤ r.mid.idx
  le2 : r.mid.idx ≤ r.e.idx

theorem setMidpoint_spec {bs : List (Block α)} (h : WF bs) {f : Nat → Option α} (hf : Holds bs f)
    (valid : α → Bool) {b e : Pos} (hb : VLegal bs f valid b) (he : VLegal bs f valid e)
    (hle : b.idx ≤ e.idx) (grain : Nat) :
    ∃ r, Returns (fun n => setMidpoint bs valid n b e grain) r ∧ RangeOk bs f valid r ∧
      r.b = b ∧ r.e = e := by
  by_cases hbe : b = e
  · subst hbe
    refine ⟨{ b := b, e := b, mid := b, grain := grain }, ?_, ⟨hb, hb, hb, Nat.le_refl _, Nat.le_refl _⟩, rfl, rfl⟩
    simp only [setMidpoint, if_true]
    exact Returns.pure _
  · have hlt : b.idx < e.idx := by
      rcases Nat.eq_or_lt_of_le hle with h' | h'
      · exact absurd (hb.legal.inj h he.legal h') hbe
      · exact h'
    obtain ⟨m, hm1, hm2, hm3, hm4⟩ := half_spec h hf valid hb he hlt
    refine ⟨{ b := b, e := e, mid := m, grain := grain }, ?_, ⟨hb, he, hm2, hm3, by simp only; omega⟩, rfl, rfl⟩
    simp only [setMidpoint, if_neg hbe]
    exact hm1.map fun m => { b := b, e := e, mid := m, grain := grain : Range }

end BA2
end Verif
