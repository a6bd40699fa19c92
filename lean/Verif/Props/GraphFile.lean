import Verif.Model.GraphFile
import Verif.Props.Report
import Verif.Props.SampleGraphAll
import Mathlib.Data.Set.Card
import Mathlib.Algebra.BigOperators.Ring.Finset

/-!
# C131: the file of a graph has the format METIS reads
-/
namespace Verif
namespace Samp

/-! ### A reader for the format -/

/-- The pieces of a text between the separators. -/
def split (sep : Char) : List Char → List (List Char)
  | [] => [[]]
  | c :: l => if c = sep then [] :: split sep l else
    match split sep l with
    | [] => [[c]]
    | w :: ws => (c :: w) :: ws

/-- The words of a line. -/
def words (l : List Char) : List (List Char) := (split ' ' l).filter fun w => !w.isEmpty

/-- An unsigned decimal number. -/
def readNat (w : List Char) : Option Nat :=
  if w ≠ [] ∧ ∀ c ∈ w, 48 ≤ c.toNat ∧ c.toNat ≤ 57 then some (w.foldl (fun n c => 10 * n + (c.toNat - 48)) 0) else none

/-- A decimal number with or without the sign `-`. -/
def readInt : List Char → Option Int
  | '-' :: w => (readNat w).map fun n => -(n : Int)
  | w => (readNat w).map fun n => (n : Int)

/-- The line of a node: neighbours, counted from 1, and weights of the edges in turn. -/
def readPairs : List (List Char) → Option (List (Nat × Int))
  | [] => some []
  | [_] => none
  | a :: b :: ws => do
    let t ← readNat a
    let w ← readInt b
    let r ← readPairs ws
    if t = 0 then none else some ((t - 1, w) :: r)

/-- A file with edge weights (format 1): the number of edges in the header and the neighbours (counted from 0) and weights of each
node. The header has the number of nodes, the number of edges and the format. There is one line for every node, and every line ends with a newline. -/
def readFile (text : List Char) : Option (Nat × List (List (Nat × Int))) :=
  match split '\n' text with
  | [] => none
  | h :: ls =>
    match words h with
    | [a, b, c] => do
      let n ← readNat a
      let m ← readNat b
      if c = ['1'] ∧ ls.length = n + 1 ∧ ls[n]? = some [] then
        let rows ← (ls.take n).mapM fun l => readPairs (words l)
        some (m, rows)
      else none
    | _ => none

/-! ### Splitting -/

private theorem split_none {sep : Char} {w : List Char} (h : sep ∉ w) : split sep w = [w] := by
  induction w with
  | nil => rfl
  | cons c w ih =>
    rw [List.mem_cons, not_or] at h
    simp [split, Ne.symm h.1, ih h.2]

private theorem split_cons {sep : Char} {w l : List Char} (h : sep ∉ w) : split sep (w ++ sep :: l) = w :: split sep l := by
  induction w with
  | nil => simp [split]
  | cons c w ih =>
    rw [List.mem_cons, not_or] at h
    simp [split, Ne.symm h.1, ih h.2]

private theorem words_one {w : List Char} (h : ' ' ∉ w) (h0 : w ≠ []) : words w = [w] := by
  cases w with
  | nil => exact absurd rfl h0
  | cons c w => simp [words, split_none h]

private theorem words_cons {w l : List Char} (h : ' ' ∉ w) (h0 : w ≠ []) : words (w ++ ' ' :: l) = w :: words l := by
  cases w with
  | nil => exact absurd rfl h0
  | cons c w => rw [words, split_cons h]; simp [words]

private theorem words_space {l : List Char} : words (' ' :: l) = words l := by simp [words, split]

/-! ### Numbers -/

private theorem nat_digits (n : Nat) : ∀ c ∈ Report.nat n, 48 ≤ c.toNat ∧ c.toNat ≤ 57 := (Report.nat_spec n).1

private theorem nat_ne (n : Nat) : Report.nat n ≠ [] := by
  obtain ⟨_, _, ⟨c, t, h, _⟩, _⟩ := Report.nat_spec n
  rw [h]; simp

private theorem nat_not_mem (n : Nat) {c : Char} (h : c.toNat < 48) : c ∉ Report.nat n := fun hc => by
  have := nat_digits n c hc; omega

private theorem readNat_nat (n : Nat) : readNat (Report.nat n) = some n := by
  rw [readNat, if_pos ⟨nat_ne n, nat_digits n⟩]
  exact congrArg some (Report.nat_spec n).2.1

private theorem int_ne (z : Int) : Report.int z ≠ [] := by
  cases z with
  | ofNat n => exact nat_ne n
  | negSucc n => simp [Report.int]

private theorem int_not_mem (z : Int) {c : Char} (h : c.toNat < 45) : c ∉ Report.int z := by
  cases z with
  | ofNat n => exact nat_not_mem n (by omega)
  | negSucc n =>
    intro hc
    rcases List.mem_cons.mp hc with rfl | hc
    · exact absurd h (by decide)
    · exact nat_not_mem _ (by omega) hc

private theorem readInt_int (z : Int) : readInt (Report.int z) = some z := by
  cases z with
  | ofNat n =>
    have h : ∀ w, Report.nat n ≠ '-' :: w := fun w hw =>
      nat_not_mem n (c := '-') (by decide) (by rw [hw]; exact List.mem_cons_self)
    rw [Report.int, readInt, readNat_nat]
    · rfl
    · exact h
  | negSucc n =>
    rw [Report.int, readInt, readNat_nat]
    simp [Int.negSucc_eq]

/-! ### Rows -/

private theorem rowText_spec {g : Graph} {lo : Nat} : ∀ (l : List (Nat × Int)) e, lo ≤ e →
    (∀ m x, l[m]? = some x → g.adj[e + m]? = some x.1 ∧ g.wts[e + m]? = some x.2) → (∀ x ∈ l, x.1 + 1 < 2 ^ 31) →
    ∃ t, rowText g lo l.length e = some t ∧ '\n' ∉ t ∧ readPairs (words t) = some l ∧ (lo < e → l ≠ [] → ∃ u, t = ' ' :: u) ∧ (l = [] → t = []) := by
  intro l
  induction l with
  | nil => intro e _ _ _; exact ⟨[], rfl, by simp, by simp [words, split, readPairs], fun _ h => absurd rfl h, fun _ => rfl⟩
  | cons x l ih =>
    intro e he hx hb
    obtain ⟨x1, x2⟩ := hx 0 x rfl
    rw [Nat.add_zero] at x1 x2
    obtain ⟨t, t1, t2, t3, t4, t5⟩ := ih (e + 1) (by omega)
      (fun m y hy => by have := hx (m + 1) y (by simpa using hy); rwa [show e + (m + 1) = e + 1 + m by omega] at this)
      fun y hy => hb y (List.mem_cons_of_mem _ hy)
    have hb0 := hb x List.mem_cons_self
    have hw : words (Report.nat (x.1 + 1) ++ ' ' :: (Report.int x.2 ++ t)) = Report.nat (x.1 + 1) :: Report.int x.2 :: words t := by
      rw [words_cons (nat_not_mem _ (by decide)) (nat_ne _)]
      congr 1
      by_cases h0 : l = []
      · rw [t5 h0, List.append_nil, words_one (int_not_mem _ (by decide)) (int_ne _)]
        simp [words, split]
      · obtain ⟨u, rfl⟩ := t4 (by omega) h0
        rw [words_cons (int_not_mem _ (by decide)) (int_ne _), words_space]
    refine ⟨(if lo < e then [' '] else []) ++ Report.nat (x.1 + 1) ++ ' ' :: (Report.int x.2 ++ t), ?_, ?_, ?_, ?_, by simp⟩
    · simp only [List.length_cons, rowText, x1, x2, t1, Option.bind_eq_bind, Option.bind_some, if_pos hb0]
    · have h1 := nat_not_mem (x.1 + 1) (c := '\n') (by decide)
      have h2 := int_not_mem x.2 (c := '\n') (by decide)
      simp only [List.mem_append, List.mem_cons, not_or]
      refine ⟨⟨?_, h1⟩, by decide, h2, t2⟩
      split <;> simp
    · have : words ((if lo < e then [' '] else []) ++ Report.nat (x.1 + 1) ++ ' ' :: (Report.int x.2 ++ t)) =
          Report.nat (x.1 + 1) :: Report.int x.2 :: words t := by
        rw [← hw]
        split
        · rw [List.append_assoc, List.singleton_append, words_space]
        · rfl
      rw [this]
      simp [readPairs, readNat_nat, readInt_int, t3]
    · intro h _
      rw [if_pos h]
      exact ⟨_, rfl⟩

private theorem rowsText_spec {g : Graph} : ∀ (ls : List (List (Nat × Int))) (rs : List Nat), rs.length = ls.length + 1 →
    (∀ i l, ls[i]? = some l → ∃ lo, rs[i]? = some lo ∧ rs[i + 1]? = some (lo + l.length) ∧
      ∀ m x, l[m]? = some x → g.adj[lo + m]? = some x.1 ∧ g.wts[lo + m]? = some x.2) → (∀ l ∈ ls, ∀ x ∈ l, x.1 + 1 < 2 ^ 31) →
    ∃ t ts, rowsText g rs = some t ∧ split '\n' t = ts ++ [[]] ∧ ts.length = ls.length ∧ ts.mapM (fun l => readPairs (words l)) = some ls := by
  intro ls
  induction ls with
  | nil =>
    intro rs hl _ _
    obtain ⟨a, rfl⟩ := List.length_eq_one_iff.mp hl
    exact ⟨[], [], rfl, rfl, rfl, rfl⟩
  | cons l ls ih =>
    intro rs hl hrow hb
    obtain ⟨lo, r1, r2, r3⟩ := hrow 0 l rfl
    obtain ⟨a, b, rs, rfl⟩ : ∃ a b rs', rs = a :: b :: rs' := by
      rcases rs with _ | ⟨a, _ | ⟨b, rs⟩⟩
      · simp at hl
      · simp at hl
      · exact ⟨a, b, rs, rfl⟩
    obtain rfl : a = lo := by simpa using r1
    obtain rfl : b = a + l.length := by simpa using r2
    obtain ⟨t, t1, t2, t3, _⟩ := rowText_spec l a le_rfl r3 (hb l List.mem_cons_self)
    obtain ⟨u, us, u1, u2, u3, u4⟩ := ih ((a + l.length) :: rs) (by simpa using hl)
      (fun i l' h => by
        obtain ⟨lo, h1, h2, h3⟩ := hrow (i + 1) l' (by simpa using h)
        exact ⟨lo, by simpa using h1, by simpa using h2, h3⟩)
      fun l' h => hb l' (List.mem_cons_of_mem _ h)
    refine ⟨t ++ '\n' :: u, t :: us, ?_, ?_, by simp [u3], ?_⟩
    · simp [rowsText, t1, u1]
    · rw [split_cons t2, u2]; rfl
    · simp [List.mapM_cons, t3, u4]

/-- **C131** For every graph in compressed form with less than 2^31 - 1 nodes, `toFile` writes a text from which a reader of the format gets the
neighbours and weights of every node back, and half of the number of entries as number of edges. -/
theorem C131_file (g : Graph) (ls : List (List (Nat × Int))) (hl : g.recs.length = ls.length + 1) (hn : ls.length < 2 ^ 64 - 1)
    (hrow : ∀ i l, ls[i]? = some l → ∃ lo, g.recs[i]? = some lo ∧ g.recs[i + 1]? = some (lo + l.length) ∧
      ∀ m x, l[m]? = some x → g.adj[lo + m]? = some x.1 ∧ g.wts[lo + m]? = some x.2)
    (hb : ∀ l ∈ ls, ∀ x ∈ l, x.1 + 1 < 2 ^ 31) :
    ∃ t, toFile g = some t ∧ readFile t = some (g.adj.length / 2, ls) := by
  obtain ⟨t, ts, t1, t2, t3, t4⟩ := rowsText_spec ls g.recs hl hrow hb
  have hsz : (g.recs.length + (2 ^ 64 - 1)) % 2 ^ 64 = ls.length := by rw [hl]; omega
  refine ⟨Report.nat ls.length ++ ' ' :: (Report.nat (g.adj.length / 2) ++ ' ' :: '1' :: '\n' :: t), ?_, ?_⟩
  · simp only [toFile, t1, hsz, Option.bind_eq_bind, Option.bind_some]
  · have hs : split '\n' (Report.nat ls.length ++ ' ' :: (Report.nat (g.adj.length / 2) ++ ' ' :: '1' :: '\n' :: t)) =
        (Report.nat ls.length ++ ' ' :: (Report.nat (g.adj.length / 2) ++ ' ' :: ['1'])) :: (ts ++ [[]]) := by
      rw [← t2, ← split_cons (w := Report.nat ls.length ++ ' ' :: (Report.nat (g.adj.length / 2) ++ ' ' :: ['1']))]
      · simp
      · have h1 := nat_not_mem ls.length (c := '\n') (by decide)
        have h2 := nat_not_mem (g.adj.length / 2) (c := '\n') (by decide)
        simp [h1, h2]
    have hw : words (Report.nat ls.length ++ ' ' :: (Report.nat (g.adj.length / 2) ++ ' ' :: ['1'])) =
        [Report.nat ls.length, Report.nat (g.adj.length / 2), ['1']] := by
      rw [words_cons (nat_not_mem _ (by decide)) (nat_ne _), words_cons (nat_not_mem _ (by decide)) (nat_ne _),
        words_one (by decide) (by decide)]
    have hc : (ts ++ [[]]).length = ls.length + 1 ∧ (ts ++ [[]])[ls.length]? = some ([] : List Char) ∧ (ts ++ [[]]).take ls.length = ts := by
      rw [← t3]; simp
    obtain ⟨c1, c2, c3⟩ := hc
    simp only [readFile, hs, hw, readNat_nat, Option.bind_eq_bind, Option.bind_some]
    rw [if_pos ⟨trivial, c1, c2⟩, c3, t4]
    rfl

/-- Three nodes in a row with weights 4 and -7, and a fourth node without neighbours. -/
example : ∃ t, toFile ⟨[0, 1, 3, 4, 4], [1, 0, 2, 1], [4, 4, -7, -7]⟩ = some t ∧
    readFile t = some (2, [[(1, 4)], [(0, 4), (2, -7)], [(1, -7)], []]) :=
  C131_file _ _ rfl (by decide) (by
    intro i l h
    rcases i with _ | _ | _ | _ | i
    · cases h; exact ⟨0, rfl, rfl, fun m x hx => by rcases m with _ | m <;> simp at hx; subst hx; exact ⟨rfl, rfl⟩⟩
    · cases h; exact ⟨1, rfl, rfl, fun m x hx => by rcases m with _ | _ | m <;> simp at hx <;> subst hx <;> exact ⟨rfl, rfl⟩⟩
    · cases h; exact ⟨3, rfl, rfl, fun m x hx => by rcases m with _ | m <;> simp at hx; subst hx; exact ⟨rfl, rfl⟩⟩
    · cases h; exact ⟨4, rfl, rfl, fun m x hx => by simp at hx⟩
    · simp at h) (by decide)

/-- The text in this case. -/
example : toFile ⟨[0, 1, 3, 4, 4], [1, 0, 2, 1], [4, 4, -7, -7]⟩ = some "4 2 1\n2 4\n1 4 3 -7\n2 -7\n\n".toList := by decide +kernel

/-! ### The graph of a sample -/

/-- The entries of the nodes of a graph in compressed form. -/
private def rowsOf (g : Graph) (n : Nat) : List (List (Nat × Int)) := (List.range n).map fun i =>
  (List.range (g.recs.getD (i + 1) 0 - g.recs.getD i 0)).map fun m =>
    (g.adj.getD (g.recs.getD i 0 + m) 0, g.wts.getD (g.recs.getD i 0 + m) 0)

private theorem rec_get {g : Graph} {n i : Nat} (h : g.recs.length = n + 1) (hi : i ≤ n) : g.recs[i]? = some (g.recs.getD i 0) := by
  rw [List.getElem?_eq_getElem (by omega), List.getD_eq_getElem _ _ (by omega)]

private theorem GraphOk.bound {ids : List Nat} {w : Nat → Nat → Int} {S : List (List Nat)} {g : Graph} (hg : GraphOk ids w S g) :
    ∀ k, k ≤ ids.length → g.recs.getD (ids.length - k) 0 ≤ g.adj.length := by
  intro k
  induction k with
  | zero =>
    intro _
    have := rec_get hg.len (le_refl ids.length)
    rw [hg.last] at this
    exact (Option.some.inj this).ge
  | succ k ih =>
    intro hk
    refine le_trans (hg.mono (ids.length - (k + 1)) _ _ (rec_get hg.len (by omega)) ?_) (ih (by omega))
    rw [show ids.length - (k + 1) + 1 = ids.length - k by omega]
    exact rec_get hg.len (by omega)

private theorem GraphOk.total {ids : List Nat} {w : Nat → Nat → Int} {S : List (List Nat)} {g : Graph} (hg : GraphOk ids w S g) :
    ∀ k, k ≤ ids.length → ∑ i ∈ Finset.range k, (g.recs.getD (i + 1) 0 - g.recs.getD i 0) = g.recs.getD k 0 := by
  intro k
  induction k with
  | zero =>
    intro _
    have := rec_get hg.len (Nat.zero_le _)
    rw [hg.zero] at this
    simpa using Option.some.inj this
  | succ k ih =>
    intro hk
    have := hg.mono k _ _ (rec_get hg.len (by omega)) (rec_get hg.len (by omega))
    rw [Finset.sum_range_succ, ih (by omega)]
    omega

open Classical in
private theorem edges_twice (n : Nat) (A : Nat → Nat → Prop) (hs : ∀ i j, A i j → A j i) (hi : ∀ i j, A i j → i ≠ j) (hn : ∀ i j, A i j → i < n) :
    ∑ i ∈ Finset.range n, ((Finset.range n).filter (A i)).card = 2 * {x : Nat × Nat | x.1 < x.2 ∧ A x.1 x.2}.ncard := by
  have h1 : ∑ i ∈ Finset.range n, ((Finset.range n).filter (A i)).card = ((Finset.range n ×ˢ Finset.range n).filter fun x => A x.1 x.2).card := by
    rw [Finset.card_filter, Finset.sum_product]
    exact Finset.sum_congr rfl fun i _ => Finset.card_filter _ _
  have h2 : {x : Nat × Nat | x.1 < x.2 ∧ A x.1 x.2} =
      ((((Finset.range n ×ˢ Finset.range n).filter fun x => A x.1 x.2).filter fun x => x.1 < x.2 : Finset (Nat × Nat)) : Set (Nat × Nat)) := by
    ext x
    simp only [Set.mem_setOf_eq, Finset.coe_filter, Finset.mem_filter, Finset.mem_product, Finset.mem_range]
    exact ⟨fun h => ⟨⟨⟨hn _ _ h.2, hn _ _ (hs _ _ h.2)⟩, h.2⟩, h.1⟩, fun h => ⟨h.2, h.1.2⟩⟩
  rw [h1, h2, Set.ncard_coe_finset, ← Finset.card_filter_add_card_filter_not (fun x : Nat × Nat => x.1 < x.2), two_mul]
  congr 1
  refine Finset.card_nbij' Prod.swap Prod.swap ?_ ?_ (fun _ _ => rfl) (fun _ _ => rfl)
  · intro x hx
    simp only [Finset.coe_filter, Finset.mem_filter, Finset.mem_product, Finset.mem_range, Set.mem_setOf_eq, Prod.fst_swap, Prod.snd_swap] at hx ⊢
    have := hi _ _ hx.1.2
    exact ⟨⟨⟨hx.1.1.2, hx.1.1.1⟩, hs _ _ hx.1.2⟩, by omega⟩
  · intro x hx
    simp only [Finset.coe_filter, Finset.mem_filter, Finset.mem_product, Finset.mem_range, Set.mem_setOf_eq, Prod.fst_swap, Prod.snd_swap] at hx ⊢
    exact ⟨⟨⟨hx.1.1.2, hx.1.1.1⟩, hs _ _ hx.1.2⟩, by omega⟩

/-- **C131** The file of the graph of a sample: a reader gets one row for every sample point, with the points that share a simplex with it, once each
and with the weight of the edge, and the number of edges in the header is the number of pairs of points that share a simplex. -/
theorem C131_sample {ids : List Nat} {w : Nat → Nat → Int} {S : List (List Nat)} {g : Graph} (hg : GraphOk ids w S g) (hn : ids.length < 2 ^ 31) :
    ∃ (t : List Char) (m : Nat) (rows : List (List (Nat × Int))), toFile g = some t ∧ readFile t = some (m, rows) ∧ rows.length = ids.length ∧
      (∀ (i : Nat) (row : List (Nat × Int)), rows[i]? = some row → (row.map Prod.fst).Nodup ∧
        ∀ j z, (j, z) ∈ row ↔ i ≠ j ∧ ∃ p q, ids[i]? = some p ∧ ids[j]? = some q ∧ z = w p q ∧ ∃ vs ∈ S, p ∈ vs ∧ q ∈ vs) ∧
      m = {x : Nat × Nat | x.1 < x.2 ∧ ∃ p q, ids[x.1]? = some p ∧ ids[x.2]? = some q ∧ ∃ vs ∈ S, p ∈ vs ∧ q ∈ vs}.ncard := by
  classical
  have hr : ∀ i, i ≤ ids.length → g.recs[i]? = some (g.recs.getD i 0) := fun i hi => rec_get hg.len hi
  have hbd : ∀ i, i ≤ ids.length → g.recs.getD i 0 ≤ g.adj.length := fun i hi => by
    have := hg.bound (ids.length - i) (by omega)
    rwa [show ids.length - (ids.length - i) = i by omega] at this
  have hmono : ∀ i, i < ids.length → g.recs.getD i 0 ≤ g.recs.getD (i + 1) 0 := fun i hi => hg.mono i _ _ (hr i (by omega)) (hr _ (by omega))
  have hadj : ∀ k, k < g.adj.length → g.adj[k]? = some (g.adj.getD k 0) := fun k hk => by
    rw [List.getElem?_eq_getElem hk, List.getD_eq_getElem _ _ hk]
  have hwts : ∀ k, k < g.adj.length → g.wts[k]? = some (g.wts.getD k 0) := fun k hk => by
    rw [← hg.wlen] at hk
    rw [List.getElem?_eq_getElem hk, List.getD_eq_getElem _ _ hk]
  have hlen : (rowsOf g ids.length).length = ids.length := by simp [rowsOf]
  have hget : ∀ (i : Nat) (l : List (Nat × Int)), (rowsOf g ids.length)[i]? = some l → i < ids.length ∧ l = (List.range (g.recs.getD (i + 1) 0 - g.recs.getD i 0)).map fun m =>
      (g.adj.getD (g.recs.getD i 0 + m) 0, g.wts.getD (g.recs.getD i 0 + m) 0) := by
    intro i l h
    have hi : i < ids.length := by have := (List.getElem?_eq_some_iff.mp h).1; rwa [hlen] at this
    refine ⟨hi, ?_⟩
    simp only [rowsOf, List.getElem?_map, List.getElem?_range hi, Option.map_some, Option.some.injEq] at h
    exact h.symm
  have hnd : ∀ (i : Nat) (l : List (Nat × Int)), (rowsOf g ids.length)[i]? = some l → (l.map Prod.fst).Nodup := by
    intro i l h
    obtain ⟨hi, rfl⟩ := hget i l h
    rw [List.map_map]
    refine List.Nodup.map_on (fun a ha b hb hab => ?_) List.nodup_range
    rw [List.mem_range] at ha hb
    have h1 := hbd (i + 1) (by omega)
    have := hg.once i _ _ (hr i (by omega)) (hr (i + 1) (by omega)) _ (g.recs.getD i 0 + a) (g.recs.getD i 0 + b) (by omega) (by omega) (by omega)
      (by omega) (hadj _ (by omega)) ((hadj _ (by omega)).trans (congrArg some hab.symm))
    omega
  have hmem : ∀ (i : Nat) (l : List (Nat × Int)), (rowsOf g ids.length)[i]? = some l → ∀ j z, (j, z) ∈ l ↔
      i ≠ j ∧ ∃ p q, ids[i]? = some p ∧ ids[j]? = some q ∧ z = w p q ∧ ∃ vs ∈ S, p ∈ vs ∧ q ∈ vs := by
    intro i l h j z
    obtain ⟨hi, rfl⟩ := hget i l h
    have h1 := hbd (i + 1) (by omega)
    have h2 := hmono i hi
    have key := hg.mem i _ _ (hr i (by omega)) (hr (i + 1) (by omega)) j
    constructor
    · intro hm
      obtain ⟨m, hm, he⟩ := List.mem_map.mp hm
      rw [List.mem_range] at hm
      obtain ⟨e1, e2⟩ := Prod.mk.inj he
      have hj : g.adj[g.recs.getD i 0 + m]? = some j := by rw [hadj _ (by omega), e1]
      obtain ⟨hne, vs, hvs, p, hp, q, hq, hip, hjq⟩ := key.mp ⟨_, by omega, by omega, hj⟩
      have hw := hg.weight i _ _ (hr i (by omega)) (hr (i + 1) (by omega)) j _ p q (by omega) (by omega) hj hip hjq
      rw [hwts _ (by omega), e2] at hw
      exact ⟨hne, p, q, hip, hjq, Option.some.inj hw, vs, hvs, hp, hq⟩
    · rintro ⟨hne, p, q, hip, hjq, rfl, vs, hvs, hp, hq⟩
      obtain ⟨k, k1, k2, k3⟩ := key.mpr ⟨hne, vs, hvs, p, hp, q, hq, hip, hjq⟩
      have hw := hg.weight i _ _ (hr i (by omega)) (hr (i + 1) (by omega)) j k p q (by omega) (by omega) k3 hip hjq
      rw [hwts _ (by omega)] at hw
      rw [hadj _ (by omega)] at k3
      refine List.mem_map.mpr ⟨k - g.recs.getD i 0, List.mem_range.mpr (by omega), ?_⟩
      rw [Nat.add_sub_cancel' k1, Option.some.inj k3, Option.some.inj hw]
  obtain ⟨t, t1, t2⟩ := C131_file g (rowsOf g ids.length) (by rw [hlen, hg.len]) (by rw [hlen]; omega)
    (by
      intro i l h
      obtain ⟨hi, rfl⟩ := hget i l h
      have h1 := hbd (i + 1) (by omega)
      have h2 := hmono i hi
      refine ⟨g.recs.getD i 0, hr i (by omega), ?_, ?_⟩
      · rw [hr (i + 1) (by omega), List.length_map, List.length_range, Nat.add_sub_cancel' h2]
      · intro m x hx
        obtain ⟨hm, rfl⟩ : m < g.recs.getD (i + 1) 0 - g.recs.getD i 0 ∧
            (g.adj.getD (g.recs.getD i 0 + m) 0, g.wts.getD (g.recs.getD i 0 + m) 0) = x := by
          have hm := (List.getElem?_eq_some_iff.mp hx).1
          rw [List.length_map, List.length_range] at hm
          refine ⟨hm, ?_⟩
          rw [List.getElem?_map, List.getElem?_range hm] at hx
          exact Option.some.inj hx
        exact ⟨hadj _ (by omega), hwts _ (by omega)⟩)
    (by
      intro l hl x hx
      obtain ⟨i, hi, rfl⟩ := List.mem_iff_getElem.mp hl
      obtain ⟨_, p, q, _, hq, _⟩ := (hmem i _ (List.getElem?_eq_getElem hi) x.1 x.2).mp hx
      have := (List.getElem?_eq_some_iff.mp hq).1
      omega)
  refine ⟨t, _, _, t1, t2, hlen, fun i row h => ⟨hnd i row h, hmem i row h⟩, ?_⟩
  have hA := edges_twice ids.length (fun i j => i ≠ j ∧ ∃ p q, ids[i]? = some p ∧ ids[j]? = some q ∧ ∃ vs ∈ S, p ∈ vs ∧ q ∈ vs)
    (fun i j ⟨h, p, q, h1, h2, vs, h3, h4, h5⟩ => ⟨h.symm, q, p, h2, h1, vs, h3, h5, h4⟩) (fun i j h => h.1)
    (fun i j ⟨h, p, q, h1, _⟩ => (List.getElem?_eq_some_iff.mp h1).1)
  have hset : {x : Nat × Nat | x.1 < x.2 ∧ x.1 ≠ x.2 ∧ ∃ p q, ids[x.1]? = some p ∧ ids[x.2]? = some q ∧ ∃ vs ∈ S, p ∈ vs ∧ q ∈ vs} =
      {x : Nat × Nat | x.1 < x.2 ∧ ∃ p q, ids[x.1]? = some p ∧ ids[x.2]? = some q ∧ ∃ vs ∈ S, p ∈ vs ∧ q ∈ vs} := by
    ext x
    simp only [Set.mem_setOf_eq]
    exact ⟨fun h => ⟨h.1, h.2.2⟩, fun h => ⟨h.1, h.1.ne, h.2⟩⟩
  rw [hset] at hA
  have hsum : g.adj.length = ∑ i ∈ Finset.range ids.length, (g.recs.getD (i + 1) 0 - g.recs.getD i 0) := by
    rw [hg.total _ le_rfl]
    exact Option.some.inj (hg.last.symm.trans (hr _ le_rfl))
  have hcard : ∀ i ∈ Finset.range ids.length, g.recs.getD (i + 1) 0 - g.recs.getD i 0 = ((Finset.range ids.length).filter
      fun j => i ≠ j ∧ ∃ p q, ids[i]? = some p ∧ ids[j]? = some q ∧ ∃ vs ∈ S, p ∈ vs ∧ q ∈ vs).card := by
    intro i hi
    rw [Finset.mem_range] at hi
    have hl : (rowsOf g ids.length)[i]? = some _ := List.getElem?_eq_getElem (by rw [hlen]; exact hi)
    have e := congrArg List.length (hget i _ hl).2
    rw [List.length_map, List.length_range] at e
    rw [← e, ← List.length_map (f := Prod.fst), ← List.toFinset_card_of_nodup (hnd i _ hl)]
    congr 1
    ext j
    rw [List.mem_toFinset, List.mem_map, Finset.mem_filter, Finset.mem_range]
    constructor
    · rintro ⟨⟨j', z⟩, hx, rfl⟩
      obtain ⟨hne, p, q, h1, h2, _, h3⟩ := (hmem i _ hl j' z).mp hx
      exact ⟨(List.getElem?_eq_some_iff.mp h2).1, hne, p, q, h1, h2, h3⟩
    · rintro ⟨_, hne, p, q, h1, h2, h3⟩
      exact ⟨(j, w p q), (hmem i _ hl j _).mpr ⟨hne, p, q, h1, h2, rfl, h3⟩, rfl⟩
  have htwo : g.adj.length = 2 * {x : Nat × Nat | x.1 < x.2 ∧ ∃ p q, ids[x.1]? = some p ∧ ids[x.2]? = some q ∧ ∃ vs ∈ S, p ∈ vs ∧ q ∈ vs}.ncard := by
    rw [← hA, hsum]
    refine Finset.sum_congr rfl fun i hi => ?_
    convert hcard i hi
  rw [htwo]
  omega

/-- Four points and two triangles with a common edge. -/
example (w : Nat → Nat → Int) : ∃ g t rows, makeGraphSeq 2 4 (translation [5, 6, 7, 8]) w [[5, 6, 7], [6, 7, 8]] = some g ∧ toFile g = some t ∧
    readFile t = some ({x : Nat × Nat | x.1 < x.2 ∧ ∃ p q, [5, 6, 7, 8][x.1]? = some p ∧ [5, 6, 7, 8][x.2]? = some q ∧
      ∃ vs ∈ [[5, 6, 7], [6, 7, 8]], p ∈ vs ∧ q ∈ vs}.ncard, rows) ∧ rows.length = 4 := by
  have h : SampleOk 2 [5, 6, 7, 8] [[5, 6, 7], [6, 7, 8]] := ⟨by decide, by decide, by decide⟩
  obtain ⟨g, hg, ok, _⟩ := C68_sequential h w
  obtain ⟨t, m, rows, h1, h2, h3, _, rfl⟩ := C131_sample ok (by decide)
  exact ⟨g, t, rows, hg, h1, h2, h3⟩

end Samp
end Verif
