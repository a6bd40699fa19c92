import Verif.Model.Bench
import Mathlib.Data.List.Nodup
import Mathlib.Data.List.Sort
import Mathlib.Tactic.Ring
import Mathlib.Tactic.Linarith

/-!
# C117: the experiments of the benchmark program
-/
namespace Verif
namespace Bench

/-- Numbers with one digit that is not zero. -/
def Round (n : Nat) : Prop := ∃ d k, 1 ≤ d ∧ d ≤ 9 ∧ n = d * 10 ^ k

theorem log_round {d k : Nat} (h1 : 1 ≤ d) (h9 : d ≤ 9) : Nat.log 10 (d * 10 ^ k) = k := by
  have hp : 0 < 10 ^ k := by positivity
  refine Nat.log_eq_of_pow_le_of_lt_pow ?_ ?_
  · exact Nat.le_mul_of_pos_left _ h1
  · rw [pow_succ]
    nlinarith

theorem Round.pos {n : Nat} (h : Round n) : 0 < n := by
  obtain ⟨d, k, h1, -, rfl⟩ := h
  exact Nat.mul_pos h1 (by positivity)

theorem Round.next {n : Nat} (h : Round n) : Round (n + 10 ^ Nat.log 10 n) := by
  obtain ⟨d, k, h1, h9, rfl⟩ := h
  rw [log_round h1 h9]
  by_cases hd : d = 9
  · subst hd
    exact ⟨1, k + 1, le_refl _, by omega, by rw [pow_succ]; ring⟩
  · exact ⟨d + 1, k, by omega, by omega, by ring⟩

theorem Round.gap {n m : Nat} (hn : Round n) (hm : Round m) (h : n < m) : n + 10 ^ Nat.log 10 n ≤ m := by
  obtain ⟨d, k, h1, h9, rfl⟩ := hn
  obtain ⟨d', k', h1', h9', rfl⟩ := hm
  rw [log_round h1 h9]
  by_contra hlt
  push_neg at hlt
  have hp : 0 < 10 ^ k := by positivity
  have hk : Nat.log 10 (d' * 10 ^ k') = k := by
    refine Nat.log_eq_of_pow_le_of_lt_pow ?_ ?_
    · nlinarith
    · rw [pow_succ]; nlinarith
  rw [log_round h1' h9'] at hk
  subst hk
  have h2 : d < d' := Nat.lt_of_mul_lt_mul_right h
  have h3 : d' < d + 1 := by
    refine Nat.lt_of_mul_lt_mul_right (a := 10 ^ k') ?_
    linarith
  omega

theorem Round.bound {n : Nat} (h : Round n) (hn : n < 4 * 10 ^ 9) : n + 10 ^ Nat.log 10 n < 2 ^ 32 := by
  have h4 : Round (4 * 10 ^ 9) := ⟨4, 9, by omega, by omega, rfl⟩
  have := h.gap h4 hn
  omega

/-! ### The loops -/

theorem returns_cons {f g : Nat → Res (List Nat)} {l : List Nat} {n : Nat} (h : Returns f l)
    (hg : ∀ m, g (m + 1) = (f m).bind fun l => .done (n :: l)) : Returns g (n :: l) := by
  obtain ⟨k, hk⟩ := h
  refine ⟨k + 1, fun m hm => ?_⟩
  obtain ⟨m, rfl⟩ : ∃ m', m = m' + 1 := ⟨m - 1, by omega⟩
  rw [hg, hk m (by omega)]
  rfl

/-- The numbers of points are the round numbers between the bounds. -/
theorem points_round (maxN : Nat) (hM : maxN < 4 * 10 ^ 9) : ∀ (b n : Nat), maxN + 1 - n ≤ b → Round n →
    ∃ l, Returns (fun f => pointsLoop maxN f n) l ∧ l.Pairwise (· < ·) ∧
      ∀ m, m ∈ l ↔ n ≤ m ∧ m ≤ maxN ∧ Round m := by
  intro b
  induction b with
  | zero =>
    intro n hb hn
    refine ⟨[], ⟨1, fun m hm => ?_⟩, .nil, fun m => ⟨fun h => by simp at h, fun ⟨h1, h2, _⟩ => by omega⟩⟩
    obtain ⟨m, rfl⟩ : ∃ m', m = m' + 1 := ⟨m - 1, by omega⟩
    exact if_neg (by omega)
  | succ b ih =>
    intro n hb hn
    by_cases h : n ≤ maxN
    · have hpos : 0 < 10 ^ Nat.log 10 n := by positivity
      have hn0 : n ≠ 0 := hn.pos.ne'
      obtain ⟨l, hl, hs, hm⟩ := ih (n + 10 ^ Nat.log 10 n) (by omega) hn.next
      refine ⟨n :: l, returns_cons hl fun m => ?_, ?_, fun m => ?_⟩
      · have hbd := hn.bound (lt_of_le_of_lt h hM)
        simp only [pointsLoop, h, hn0, if_true, if_false, hbd]
      · refine List.pairwise_cons.2 ⟨fun m hml => ?_, hs⟩
        have := ((hm m).1 hml).1
        omega
      · rw [List.mem_cons, hm]
        constructor
        · rintro (rfl | ⟨h1, h2, h3⟩)
          · exact ⟨le_refl _, h, hn⟩
          · exact ⟨by omega, h2, h3⟩
        · rintro ⟨h1, h2, h3⟩
          rcases Nat.eq_or_lt_of_le h1 with h1 | h1
          · exact Or.inl h1.symm
          · exact Or.inr ⟨hn.gap h3 h1, h2, h3⟩
    · refine ⟨[], ⟨1, fun m hm => ?_⟩, .nil, fun m => ⟨fun h => by simp at h, fun ⟨h1, h2, _⟩ => by omega⟩⟩
      obtain ⟨m, rfl⟩ : ∃ m', m = m' + 1 := ⟨m - 1, by omega⟩
      exact if_neg h

/-- The numbers of threads are the doublings of the first one. -/
theorem threads_double (maxT : Nat) (hM : maxT < 2 ^ 31) : ∀ (b t : Nat), maxT + 1 - t ≤ b → 0 < t →
    ∃ l, Returns (fun f => threadsLoop maxT f t) l ∧ l.Pairwise (· < ·) ∧
      ∀ m, m ∈ l ↔ (∃ i, m = t * 2 ^ i) ∧ m ≤ maxT := by
  intro b
  have base : ∀ t, ¬ t ≤ maxT → ∃ l, Returns (fun f => threadsLoop maxT f t) l ∧ l.Pairwise (· < ·) ∧
      ∀ m, m ∈ l ↔ (∃ i, m = t * 2 ^ i) ∧ m ≤ maxT := by
    intro t h
    refine ⟨[], ⟨1, fun m hm => ?_⟩, .nil, fun m => ⟨fun h => by simp at h, ?_⟩⟩
    · obtain ⟨m, rfl⟩ : ∃ m', m = m' + 1 := ⟨m - 1, by omega⟩
      exact if_neg h
    · rintro ⟨⟨i, rfl⟩, h2⟩
      have : 0 < 2 ^ i := by positivity
      nlinarith
  induction b with
  | zero => exact fun t hb _ => base t (by omega)
  | succ b ih =>
    intro t hb ht
    by_cases h : t ≤ maxT
    · have hmod : t * 2 % 2 ^ 32 = t * 2 := Nat.mod_eq_of_lt (by omega)
      obtain ⟨l, hl, hs, hm⟩ := ih (t * 2) (by omega) (by omega)
      refine ⟨t :: l, returns_cons hl fun m => ?_, ?_, fun m => ?_⟩
      · simp only [threadsLoop, h, if_true, hmod]
      · refine List.pairwise_cons.2 ⟨fun m hml => ?_, hs⟩
        obtain ⟨⟨i, rfl⟩, -⟩ := (hm m).1 hml
        have : 0 < 2 ^ i := by positivity
        nlinarith
      · rw [List.mem_cons, hm]
        constructor
        · rintro (rfl | ⟨⟨i, rfl⟩, h2⟩)
          · exact ⟨⟨0, by simp⟩, h⟩
          · exact ⟨⟨i + 1, by rw [pow_succ]; ring⟩, h2⟩
        · rintro ⟨⟨i, rfl⟩, h2⟩
          cases i with
          | zero => exact Or.inl (by simp)
          | succ i => exact Or.inr ⟨⟨i, by rw [pow_succ]; ring⟩, h2⟩
    · exact base t h

/-! ### The runs -/

/-- What is to be generated. -/
structure Wanted (dists algs splitters occs : List Nat) (maxN minN maxT minT : Nat) (parBase : Bool)
    (parEdge : Option Bool) (e : Exp) : Prop where
  dist : e.dist ∈ dists
  alg : e.alg ∈ algs
  n : minN ≤ e.n ∧ e.n ≤ maxN ∧ Round e.n
  /-- CGAL has one thread and no parameters. -/
  cgal : e.alg = 'c'.toNat →
    e.threads = 1 ∧ e.occupancy = none ∧ e.splitter = none ∧ e.parBase = none ∧ e.parEdge = none
  threads : e.alg ≠ 'c'.toNat → (∃ i, e.threads = minT * 2 ^ i) ∧ e.threads ≤ maxT
  /-- Parallel CGAL has every occupancy. -/
  par : e.alg = 'm'.toNat → (∃ o ∈ occs, e.occupancy = some o) ∧ e.splitter = none ∧ e.parBase = none ∧ e.parEdge = none
  /-- The others have a sequential base case, or a parallel one with every occupancy. -/
  dc : e.alg ≠ 'c'.toNat → e.alg ≠ 'm'.toNat → (∃ s ∈ splitters, e.splitter = some s) ∧
    (∃ b, e.parEdge = some b ∧ (parEdge = none ∨ parEdge = some b)) ∧
    ((e.parBase = some false ∧ e.occupancy = some 1) ∨
      (parBase = true ∧ e.parBase = some true ∧ ∃ o ∈ occs, e.occupancy = some o))

theorem mem_edges {p : Option Bool} {x e : Exp} :
    e ∈ edges p x ↔ ∃ b, e = { x with parEdge := some b } ∧ (p = none ∨ p = some b) := by
  cases p with
  | none =>
    simp only [edges, List.mem_cons, List.not_mem_nil, or_false, true_or, and_true]
    constructor
    · rintro (h | h)
      · exact ⟨false, h⟩
      · exact ⟨true, h⟩
    · rintro ⟨b, h⟩
      cases b
      · exact Or.inl h
      · exact Or.inr h
  | some c => simp [edges]

theorem edges_nodup (p : Option Bool) (x : Exp) : (edges p x).Nodup := by
  cases p <;> simp [edges]

theorem nodup_flatMap_key {α β : Type} {l : List α} {f : α → List β} (k : β → Option α) (hl : l.Nodup)
    (hf : ∀ x ∈ l, (f x).Nodup) (hk : ∀ x ∈ l, ∀ y ∈ f x, k y = some x) : (l.flatMap f).Nodup := by
  rw [List.nodup_flatMap]
  refine ⟨hf, ?_⟩
  have : l.Pairwise fun a b => a ∈ l ∧ b ∈ l ∧ a ≠ b := by
    rw [List.pairwise_iff_forall_sublist]
    intro a b hab
    refine ⟨hab.subset (by simp), hab.subset (by simp), ?_⟩
    have := hl.sublist hab
    simpa using this
  refine this.imp ?_
  rintro a b ⟨ha, hb, hne⟩ y hya hyb
  exact hne (Option.some.inj ((hk a ha y hya).symm.trans (hk b hb y hyb)))

variable {splitters occs : List Nat} {parBase : Bool} {parEdge : Option Bool} {d n a t : Nat}

theorem mem_occLoop_m (ha : a = 'm'.toNat) {e : Exp} : ∀ (l : List Nat) (first : Bool),
    e ∈ occLoop splitters parBase parEdge d n a t first l ↔ ∃ o ∈ l, e = ⟨d, n, a, t, some o, none, none, none⟩
  | [], _ => by simp [occLoop]
  | o :: l, first => by
    rw [occLoop, List.mem_append, mem_occLoop_m ha l false, if_pos ha]
    simp

theorem mem_occLoop (ha : a ≠ 'm'.toNat) {e : Exp} : ∀ (l : List Nat) (first : Bool),
    e ∈ occLoop splitters parBase parEdge d n a t first l ↔
      (first = true ∧ l ≠ [] ∧ ∃ s ∈ splitters, e ∈ edges parEdge ⟨d, n, a, t, some 1, some s, some false, none⟩) ∨
      (parBase = true ∧ ∃ o ∈ l, ∃ s ∈ splitters, e ∈ edges parEdge ⟨d, n, a, t, some o, some s, some true, none⟩)
  | [], _ => by simp [occLoop]
  | o :: l, first => by
    rw [occLoop, List.mem_append, mem_occLoop ha l false, if_neg ha]
    cases first <;> cases parBase <;> simp [List.mem_flatMap]
    constructor
    · rintro (⟨s, hs, h | h⟩ | h)
      · exact Or.inl ⟨s, hs, h⟩
      · exact Or.inr (Or.inl ⟨s, hs, h⟩)
      · exact Or.inr (Or.inr h)
    · rintro (⟨s, hs, h⟩ | ⟨s, hs, h⟩ | h)
      · exact Or.inl ⟨s, hs, Or.inl h⟩
      · exact Or.inl ⟨s, hs, Or.inr h⟩
      · exact Or.inr h

theorem occLoop_nodup (hs : splitters.Nodup) : ∀ (l : List Nat) (first : Bool), l.Nodup →
    (occLoop splitters parBase parEdge d n a t first l).Nodup
  | [], _, _ => by simp [occLoop]
  | o :: l, first, hl => by
    obtain ⟨ho, hl⟩ := List.nodup_cons.1 hl
    rw [occLoop]
    refine List.nodup_append'.2 ⟨?_, occLoop_nodup hs l false hl, ?_⟩
    · split
      · simp
      · refine nodup_flatMap_key Exp.splitter hs (fun s _ => ?_) ?_
        · refine List.nodup_append'.2 ⟨?_, ?_, ?_⟩
          · split
            · exact edges_nodup _ _
            · simp
          · split
            · exact edges_nodup _ _
            · simp
          · intro e h1 h2
            split at h1
            · split at h2
              · obtain ⟨b, rfl, -⟩ := mem_edges.1 h1
                obtain ⟨b', h, -⟩ := mem_edges.1 h2
                simp at h
              · simp at h2
            · simp at h1
        · intro s _ e he
          rcases List.mem_append.1 he with he | he
          · split at he
            · obtain ⟨b, rfl, -⟩ := mem_edges.1 he; rfl
            · simp at he
          · split at he
            · obtain ⟨b, rfl, -⟩ := mem_edges.1 he; rfl
            · simp at he
    · intro e h1 h2
      by_cases ha : a = 'm'.toNat
      · rw [if_pos ha, List.mem_singleton] at h1
        obtain ⟨o', ho', h⟩ := (mem_occLoop_m ha l false).1 h2
        rw [h1] at h
        injection h with _ _ _ _ h
        injection h with h
        exact ho (h ▸ ho')
      · rw [if_neg ha] at h1
        rcases (mem_occLoop ha l false).1 h2 with ⟨h, -⟩ | ⟨-, o', ho', s, hs, h⟩
        · exact absurd h (by simp)
        · obtain ⟨b, rfl, -⟩ := mem_edges.1 h
          obtain ⟨s', -, h1⟩ := List.mem_flatMap.1 h1
          rcases List.mem_append.1 h1 with h1 | h1
          · split at h1
            · obtain ⟨b', h, -⟩ := mem_edges.1 h1; simp at h
            · simp at h1
          · split at h1
            · obtain ⟨b', h, -⟩ := mem_edges.1 h1
              simp at h
              exact ho (h.1 ▸ ho')
            · simp at h1

theorem occLoop_fields {e : Exp} {l : List Nat} {first : Bool}
    (h : e ∈ occLoop splitters parBase parEdge d n a t first l) : e.dist = d ∧ e.n = n ∧ e.alg = a ∧ e.threads = t := by
  by_cases ha : a = 'm'.toNat
  · obtain ⟨o, -, rfl⟩ := (mem_occLoop_m ha l first).1 h
    exact ⟨rfl, rfl, rfl, rfl⟩
  · rcases (mem_occLoop ha l first).1 h with ⟨-, -, s, -, h⟩ | ⟨-, o, -, s, -, h⟩ <;>
      obtain ⟨b, rfl, -⟩ := mem_edges.1 h <;> exact ⟨rfl, rfl, rfl, rfl⟩

variable {algs : List Nat} {ts : List Nat}

theorem algLoop_fields {e : Exp} (h : e ∈ algLoop algs splitters occs parBase parEdge d n ts) : e.dist = d ∧ e.n = n := by
  obtain ⟨a, -, h⟩ := List.mem_flatMap.1 h
  split at h
  · rw [List.mem_singleton] at h; subst h; exact ⟨rfl, rfl⟩
  · obtain ⟨t, -, h⟩ := List.mem_flatMap.1 h
    exact ⟨(occLoop_fields h).1, (occLoop_fields h).2.1⟩

theorem algLoop_nodup (ha : algs.Nodup) (hs : splitters.Nodup) (ho : occs.Nodup) (ht : ts.Nodup) :
    (algLoop algs splitters occs parBase parEdge d n ts).Nodup := by
  refine nodup_flatMap_key (fun e => some e.alg) ha (fun a _ => ?_) ?_
  · split
    · simp
    · exact nodup_flatMap_key (fun e => some e.threads) ht (fun t _ => occLoop_nodup hs occs true ho)
        fun t _ e he => by rw [(occLoop_fields he).2.2.2]
  · intro a _ e he
    split at he
    · rw [List.mem_singleton] at he; subst he; rfl
    · obtain ⟨t, -, he⟩ := List.mem_flatMap.1 he
      rw [(occLoop_fields he).2.2.1]

theorem mem_algLoop {e : Exp} (ho : occs ≠ []) :
    e ∈ algLoop algs splitters occs parBase parEdge d n ts ↔
      e.dist = d ∧ e.n = n ∧ e.alg ∈ algs ∧
      (e.alg = 'c'.toNat →
        e.threads = 1 ∧ e.occupancy = none ∧ e.splitter = none ∧ e.parBase = none ∧ e.parEdge = none) ∧
      (e.alg ≠ 'c'.toNat → e.threads ∈ ts) ∧
      (e.alg = 'm'.toNat →
        (∃ o ∈ occs, e.occupancy = some o) ∧ e.splitter = none ∧ e.parBase = none ∧ e.parEdge = none) ∧
      (e.alg ≠ 'c'.toNat → e.alg ≠ 'm'.toNat → (∃ s ∈ splitters, e.splitter = some s) ∧
        (∃ b, e.parEdge = some b ∧ (parEdge = none ∨ parEdge = some b)) ∧
        ((e.parBase = some false ∧ e.occupancy = some 1) ∨
          (parBase = true ∧ e.parBase = some true ∧ ∃ o ∈ occs, e.occupancy = some o))) := by
  have hcm : 'c'.toNat ≠ 'm'.toNat := by decide
  simp only [algLoop, List.mem_flatMap]
  constructor
  · rintro ⟨a, ha, h⟩
    split at h
    · rename_i hc
      rw [List.mem_singleton] at h
      subst h
      exact ⟨rfl, rfl, ha, fun _ => ⟨rfl, rfl, rfl, rfl, rfl⟩, fun h => absurd hc h,
        fun h => absurd (hc.symm.trans h) hcm, fun h => absurd hc h⟩
    · rename_i hc
      obtain ⟨t, ht, h⟩ := List.mem_flatMap.1 h
      by_cases hm : a = 'm'.toNat
      · obtain ⟨o, ho, rfl⟩ := (mem_occLoop_m hm occs true).1 h
        exact ⟨rfl, rfl, ha, fun h => absurd h hc, fun _ => ht, fun _ => ⟨⟨o, ho, rfl⟩, rfl, rfl, rfl⟩,
          fun _ h => absurd hm h⟩
      · rcases (mem_occLoop hm occs true).1 h with ⟨-, -, s, hs, h⟩ | ⟨hp, o, ho, s, hs, h⟩
        · obtain ⟨b, rfl, hb⟩ := mem_edges.1 h
          exact ⟨rfl, rfl, ha, fun h => absurd h hc, fun _ => ht, fun h => absurd h hm,
            fun _ _ => ⟨⟨s, hs, rfl⟩, ⟨b, rfl, hb⟩, Or.inl ⟨rfl, rfl⟩⟩⟩
        · obtain ⟨b, rfl, hb⟩ := mem_edges.1 h
          exact ⟨rfl, rfl, ha, fun h => absurd h hc, fun _ => ht, fun h => absurd h hm,
            fun _ _ => ⟨⟨s, hs, rfl⟩, ⟨b, rfl, hb⟩, Or.inr ⟨hp, rfl, o, ho, rfl⟩⟩⟩
  · rintro ⟨rfl, rfl, ha, h1, h2, h3, h4⟩
    refine ⟨e.alg, ha, ?_⟩
    obtain ⟨d, n, a, t, o, s, pb, pe⟩ := e
    split
    · rename_i hc
      obtain ⟨e1, e2, e3, e4, e5⟩ := h1 hc
      simp only at e1 e2 e3 e4 e5
      subst e1 e2 e3 e4 e5
      exact List.mem_singleton.2 rfl
    · rename_i hc
      refine List.mem_flatMap.2 ⟨t, h2 hc, ?_⟩
      by_cases hm : a = 'm'.toNat
      · obtain ⟨⟨o', ho', e1⟩, e2, e3, e4⟩ := h3 hm
        simp only at e1 e2 e3 e4
        subst e1 e2 e3 e4
        exact (mem_occLoop_m hm occs true).2 ⟨o', ho', rfl⟩
      · obtain ⟨⟨s', hs', e1⟩, ⟨b, e2, hb⟩, h⟩ := h4 hc hm
        simp only at e1 e2 h
        subst e1 e2
        refine (mem_occLoop hm occs true).2 ?_
        rcases h with ⟨e1, e2⟩ | ⟨hp, e1, o', ho', e2⟩
        · subst e1 e2
          exact Or.inl ⟨rfl, ho, s', hs', mem_edges.2 ⟨b, rfl, hb⟩⟩
        · subst e1 e2
          exact Or.inr ⟨hp, o', ho', s', hs', mem_edges.2 ⟨b, rfl, hb⟩⟩

/-! ### The property -/

/-- With a first number of points that has one digit which is not zero, a last one below four thousand million, and a
positive first number of threads, the program generates every wanted experiment, no other one, and none twice. `optMaxT`
and `optMinT` are the options, where -1 stands for the number of threads of the machine and for the largest number. -/
theorem C117_generate_partial (dists algs splitters occs : List Nat) (cores optMaxT optMinT : Int)
    (maxN minN maxT minT : Nat) (parBase : Bool) (parEdge : Option Bool)
    (oX : (maxT : Int) = if optMaxT = -1 then cores else optMaxT)
    (oT : (minT : Int) = if optMinT = -1 then (maxT : Int) else optMinT)
    (hd : dists.Nodup) (ha : algs.Nodup) (hs : splitters.Nodup) (ho : occs.Nodup) (ho0 : occs ≠ [])
    (hN : Round minN) (hM : maxN < 4 * 10 ^ 9) (hT : 0 < minT) (hT' : minT < 2 ^ 31) (hX : maxT < 2 ^ 31) :
    ∃ l, Returns (generate dists algs splitters occs cores maxN minN optMaxT optMinT parBase parEdge) l ∧ l.Nodup ∧
      ∀ e, e ∈ l ↔ Wanted dists algs splitters occs maxN minN maxT minT parBase parEdge e := by
  have e1 := oX.symm
  have e2 := oT.symm
  have u1 : toUnsigned maxT = maxT := by unfold toUnsigned; omega
  have u2 : toUnsigned minT = minT := by unfold toUnsigned; omega
  obtain ⟨ns, ⟨k1, hns⟩, hn1, hn2⟩ := points_round maxN hM _ minN (le_refl _) hN
  obtain ⟨ts, ⟨k2, hts⟩, ht1, ht2⟩ := threads_double maxT hX _ minT (le_refl _) hT
  by_cases hd0 : dists = []
  · refine ⟨[], ⟨0, fun m _ => ?_⟩, List.nodup_nil, fun e => ⟨fun h => by simp at h, fun h => ?_⟩⟩
    · simp [generate, hd0]
    · have := h.dist; simp [hd0] at this
  · set ts' := if ns ≠ [] ∧ ∃ a ∈ algs, a ≠ 'c'.toNat then ts else [] with hts'
    refine ⟨dists.flatMap fun d => ns.flatMap fun n => algLoop algs splitters occs parBase parEdge d n ts',
      ⟨max k1 k2, fun m hm => ?_⟩, ?_, fun e => ?_⟩
    · have q1 : pointsLoop maxN m minN = .done ns := hns m (by omega)
      have q2 : threadsLoop maxT m minT = .done ts := hts m (by omega)
      simp only [generate, e1, e2, u1, u2, if_neg hd0, q1, q2, Res.bind]
      by_cases hc : ns ≠ [] ∧ ∃ a ∈ algs, a ≠ 'c'.toNat
      · simp only [hts', if_pos hc]
      · simp only [hts', if_neg hc]
    · have hnd : ns.Nodup := hn1.imp fun h => Nat.ne_of_lt h
      have htd : ts'.Nodup := by
        rw [hts']
        split
        · exact ht1.imp fun h => Nat.ne_of_lt h
        · exact List.nodup_nil
      refine nodup_flatMap_key (fun e => some e.dist) hd (fun d _ => ?_) ?_
      · exact nodup_flatMap_key (fun e => some e.n) hnd (fun n _ => algLoop_nodup ha hs ho htd)
          fun n _ e he => by rw [(algLoop_fields he).2]
      · intro d _ e he
        obtain ⟨n, -, he⟩ := List.mem_flatMap.1 he
        rw [(algLoop_fields he).1]
    · simp only [List.mem_flatMap, mem_algLoop ho0]
      constructor
      · rintro ⟨d, hd, n, hn, rfl, rfl, h1, h2, h3, h4, h5⟩
        refine ⟨hd, h1, (hn2 _).1 hn, h2, fun hc => ?_, h4, h5⟩
        have h3 := h3 hc
        rw [hts', if_pos ⟨List.ne_nil_of_mem hn, _, h1, hc⟩] at h3
        exact (ht2 _).1 h3
      · intro h
        have hn := (hn2 _).2 h.n
        refine ⟨_, h.dist, _, hn, rfl, rfl, h.alg, h.cgal, fun hc => ?_, h.par, h.dc⟩
        rw [hts', if_pos ⟨List.ne_nil_of_mem hn, _, h.alg, hc⟩]
        exact (ht2 _).2 (h.threads hc)

/-- The default number of points 10 is allowed; so are the lists of the program. -/
example : ∃ l, Returns (generate ['u'.toNat, 'e'.toNat] ['c'.toNat, 'm'.toNat, 'd'.toNat] ['c'.toNat] [1, 10] 2
    100 10 (-1) 1 true none) l ∧ l.Nodup ∧ (⟨'u'.toNat, 30, 'd'.toNat, 2, some 10, some 'c'.toNat, some true, some false⟩ ∈ l) := by
  obtain ⟨l, h, hn, hm⟩ := C117_generate_partial ['u'.toNat, 'e'.toNat] ['c'.toNat, 'm'.toNat, 'd'.toNat] ['c'.toNat]
    [1, 10] 2 (-1) 1 100 10 2 1 true none rfl rfl (by decide) (by decide) (by decide) (by decide) (by decide)
    ⟨1, 1, by decide, by decide, rfl⟩ (by decide) (by decide) (by decide) (by decide)
  refine ⟨l, h, hn, (hm _).2 ⟨by decide, by decide, ⟨by decide, by decide, 3, 1, by decide, by decide, rfl⟩,
    fun h => absurd h (by decide), fun _ => ⟨⟨1, rfl⟩, by decide⟩, fun h => absurd h (by decide), fun _ _ => ?_⟩⟩
  exact ⟨⟨_, by simp, rfl⟩, ⟨false, rfl, Or.inl rfl⟩, Or.inr ⟨rfl, rfl, 10, by simp, rfl⟩⟩

theorem points_zero (maxN fuel : Nat) : pointsLoop maxN fuel 0 = .timeout := by
  induction fuel with
  | zero => rfl
  | succ f ih =>
    rw [pointsLoop, if_pos (Nat.zero_le _)]
    simp only [if_true]
    rw [if_pos (by decide), ih]
    rfl

theorem threads_zero (maxT fuel : Nat) : threadsLoop maxT fuel 0 = .timeout := by
  induction fuel with
  | zero => rfl
  | succ f ih =>
    rw [threadsLoop, if_pos (Nat.zero_le _)]
    simp only [Nat.zero_mul, Nat.zero_mod]
    rw [ih]
    rfl

theorem threads_wrap (maxT : Nat) (h : 2 ^ 31 ≤ maxT) : ∀ (j i fuel : Nat), i + j = 31 →
    threadsLoop maxT fuel (2 ^ i) = .timeout := by
  intro j
  induction j with
  | zero =>
    intro i fuel hi
    obtain rfl : i = 31 := by omega
    cases fuel with
    | zero => rfl
    | succ f =>
      rw [threadsLoop, if_pos h]
      norm_num
      rw [threads_zero]
      rfl
  | succ j ih =>
    intro i fuel hi
    cases fuel with
    | zero => rfl
    | succ f =>
      have h1 : 2 ^ i ≤ 2 ^ 31 := Nat.pow_le_pow_right (by omega) (by omega)
      have h2 : 2 ^ (i + 1) < 2 ^ 32 := Nat.pow_lt_pow_right (by omega) (by omega)
      rw [threadsLoop, if_pos (by omega), ← pow_succ, Nat.mod_eq_of_lt h2, ih (i + 1) f (by omega)]
      rfl

theorem points_ub (maxN : Nat) (hM : 4 * 10 ^ 9 ≤ maxN) : ∀ (b n : Nat), 4 * 10 ^ 9 - n ≤ b → n ≤ 4 * 10 ^ 9 → Round n →
    Undefined fun f => pointsLoop maxN f n := by
  intro b
  have base : Undefined fun f => pointsLoop maxN f (4 * 10 ^ 9) := by
    refine ⟨1, fun m hm => ?_⟩
    obtain ⟨m, rfl⟩ : ∃ m', m = m' + 1 := ⟨m - 1, by omega⟩
    have hl : Nat.log 10 (4 * 10 ^ 9) = 9 := log_round (by omega) (by omega)
    simp only [pointsLoop]
    rw [if_pos hM, if_neg (by omega : ¬ 4 * 10 ^ 9 = 0), hl]
    rfl
  induction b with
  | zero =>
    intro n hb hn _
    obtain rfl : n = 4 * 10 ^ 9 := by omega
    exact base
  | succ b ih =>
    intro n hb hn hr
    rcases Nat.eq_or_lt_of_le hn with rfl | hlt
    · exact base
    · have hpos : 0 < 10 ^ Nat.log 10 n := by positivity
      have hn0 : n ≠ 0 := hr.pos.ne'
      obtain ⟨k, hk⟩ := ih (n + 10 ^ Nat.log 10 n) (by omega) (hr.gap ⟨4, 9, by omega, by omega, rfl⟩ hlt) hr.next
      refine ⟨k + 1, fun m hm => ?_⟩
      obtain ⟨m, rfl⟩ : ∃ m', m = m' + 1 := ⟨m - 1, by omega⟩
      have := hk m (by omega)
      simp only at this
      simp only [pointsLoop, if_pos (by omega : n ≤ maxN), if_neg hn0, if_pos (hr.bound hlt), this]
      rfl

theorem points_cases (maxN n : Nat) (hM : maxN < 4 * 10 ^ 9) (hn : Round n) (hle : n ≤ maxN) (fuel : Nat) :
    pointsLoop maxN fuel n = .timeout ∨ ∃ l, l ≠ [] ∧ pointsLoop maxN fuel n = .done l := by
  induction fuel generalizing n with
  | zero => exact Or.inl rfl
  | succ f ih =>
    simp only [pointsLoop, if_pos hle, if_neg hn.pos.ne', if_pos (hn.bound (by omega))]
    by_cases h : n + 10 ^ Nat.log 10 n ≤ maxN
    · rcases ih _ hn.next h with h | ⟨l, -, h⟩
      · exact Or.inl (by rw [h]; rfl)
      · exact Or.inr ⟨n :: l, by simp, by rw [h]; rfl⟩
    · cases f with
      | zero => exact Or.inl rfl
      | succ f => exact Or.inr ⟨[n], by simp, by rw [pointsLoop, if_neg h]; rfl⟩

/-- Without the conditions the program does not return or has no defined behaviour: with 0 as first number of points;
with 0 as first number of threads and an algorithm that has threads; with a last number of threads below -1 and the
default first one; with a last number of points of four thousand million or more. -/
theorem C117_violated (dists algs splitters occs : List Nat) (cores : Int) (parBase : Bool) (parEdge : Option Bool)
    (hd : dists ≠ []) :
    (∀ maxN maxT minT, Diverges (generate dists algs splitters occs cores maxN 0 maxT minT parBase parEdge)) ∧
    (∀ maxN minN maxT, Round minN → minN ≤ maxN → maxN < 4 * 10 ^ 9 → (∃ a ∈ algs, a ≠ 'c'.toNat) →
      Diverges (generate dists algs splitters occs cores maxN minN maxT 0 parBase parEdge)) ∧
    (∀ maxN minN maxT, Round minN → minN ≤ maxN → maxN < 4 * 10 ^ 9 → (∃ a ∈ algs, a ≠ 'c'.toNat) →
      -2 ^ 31 ≤ maxT → maxT < -1 →
      Diverges (generate dists algs splitters occs cores maxN minN maxT 1 parBase parEdge)) ∧
    (∀ maxN minN maxT minT, Round minN → minN ≤ 4 * 10 ^ 9 → 4 * 10 ^ 9 ≤ maxN →
      Undefined (generate dists algs splitters occs cores maxN minN maxT minT parBase parEdge)) := by
  refine ⟨fun maxN maxT minT fuel => ?_, fun maxN minN maxT hr hle hM ha fuel => ?_,
    fun maxN minN maxT hr hle hM ha h1 h2 fuel => ?_, fun maxN minN maxT minT hr hle hM => ?_⟩
  · simp only [generate, if_neg hd, points_zero]
    rfl
  · simp only [generate, if_neg hd]
    rcases points_cases maxN minN hM hr hle fuel with h | ⟨l, hl, h⟩
    · rw [h]; rfl
    · rw [h]
      simp only [Res.bind_done, if_pos (And.intro hl ha)]
      have : toUnsigned (if (0 : Int) = -1 then (if maxT = -1 then cores else maxT) else 0) = 0 := rfl
      rw [this, threads_zero]
      rfl
  · simp only [generate, if_neg hd]
    rcases points_cases maxN minN hM hr hle fuel with h | ⟨l, hl, h⟩
    · rw [h]; rfl
    · rw [h]
      simp only [Res.bind_done, if_pos (And.intro hl ha), if_neg (by omega : ¬ maxT = -1)]
      have e : toUnsigned (if (1 : Int) = -1 then maxT else 1) = 2 ^ 0 := rfl
      have hb : 2 ^ 31 ≤ toUnsigned maxT := by unfold toUnsigned; omega
      rw [e, threads_wrap _ hb 31 0 fuel rfl]
      rfl
  · obtain ⟨k, hk⟩ := points_ub maxN hM _ minN (le_refl _) hle hr
    refine ⟨k, fun m hm => ?_⟩
    have := hk m hm
    simp only at this
    simp only [generate, if_neg hd, this]
    rfl

/-- Calls of this kind that the options of the program allow. -/
example :
    Diverges (generate ['u'.toNat] ['c'.toNat] ['c'.toNat] [1] 8 1000 0 (-1) 1 false none) ∧
    Diverges (generate ['u'.toNat] ['d'.toNat] ['c'.toNat] [1] 8 1000 10 (-1) 0 false none) ∧
    Diverges (generate ['u'.toNat] ['d'.toNat] ['c'.toNat] [1] 8 1000 10 (-2) 1 false none) ∧
    Undefined (generate ['u'.toNat] ['c'.toNat] ['c'.toNat] [1] 8 4000000000 10 (-1) 1 false none) := by
  have h10 : Round 10 := ⟨1, 1, by decide, by decide, rfl⟩
  exact ⟨(C117_violated _ _ _ _ 8 _ _ (by decide)).1 _ _ _,
    (C117_violated _ _ _ _ 8 _ _ (by decide)).2.1 _ _ _ h10 (by decide) (by decide) ⟨'d'.toNat, by simp, by decide⟩,
    (C117_violated _ _ _ _ 8 _ _ (by decide)).2.2.1 _ _ _ h10 (by decide) (by decide) ⟨'d'.toNat, by simp, by decide⟩
      (by decide) (by decide),
    (C117_violated _ _ _ _ 8 _ _ (by decide)).2.2.2 _ _ _ _ h10 (by decide) (by decide)⟩

end Bench
end Verif
