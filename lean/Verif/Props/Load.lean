import Verif.Model.Load
import Verif.Props.Misc
import Mathlib.Tactic.Linarith

/-!
# C87: loading points from a file
-/
namespace Verif
namespace Load
variable {D : Nat} {K : Type} [LinearOrder K]

/-- The line contains the point: one number per dimension, separated by `sep`. -/
def Line (parse : List Char → Option K) (sep : Char) (l : List Char) (p : Vec D K) : Prop :=
  ∃ fs : List (List Char), l = Misc.join sep fs ∧ (∀ f ∈ fs, sep ∉ f) ∧ fs ≠ [] ∧
    ∀ d : Fin D, ∃ f, fs[d.val]? = some f ∧ parse f = some (p d)

/-- Splitting is the only way to write a line as fields. -/
theorem join_inj {α : Type} (sep : α) : ∀ (fs gs : List (List α)), (∀ f ∈ fs, sep ∉ f) → (∀ g ∈ gs, sep ∉ g) → fs ≠ [] → gs ≠ [] →
    Misc.join sep fs = Misc.join sep gs → fs = gs := by
  have key : ∀ (f g : List α) (a b : List α), sep ∉ f → sep ∉ g → f ++ sep :: a = g ++ sep :: b → f = g ∧ a = b := by
    intro f
    induction f with
    | nil =>
      intro g a b _ hg h
      rcases g with _ | ⟨y, g⟩
      · simpa using h
      · simp only [List.nil_append, List.cons_append, List.cons.injEq] at h
        exact absurd (by rw [← h.1]; exact List.mem_cons_self) hg
    | cons x f ih =>
      intro g a b hf hg h
      rcases g with _ | ⟨y, g⟩
      · simp only [List.nil_append, List.cons_append, List.cons.injEq] at h
        exact absurd (by rw [h.1]; exact List.mem_cons_self) hf
      · simp only [List.cons_append, List.cons.injEq] at h
        obtain ⟨e1, e2⟩ := ih g a b (fun hm => hf (List.mem_cons_of_mem _ hm)) (fun hm => hg (List.mem_cons_of_mem _ hm)) h.2
        exact ⟨by rw [h.1, e1], e2⟩
  intro fs
  induction fs with
  | nil => intro gs _ _ h; exact absurd rfl h
  | cons f fs ih =>
    intro gs hf hg _ hgn h
    rcases gs with _ | ⟨g, gs⟩
    · exact absurd rfl hgn
    · have hf1 := hf f List.mem_cons_self
      have hg1 := hg g List.mem_cons_self
      rcases fs with _ | ⟨f2, fs⟩ <;> rcases gs with _ | ⟨g2, gs⟩
      · simp only [Misc.join] at h; rw [h]
      · simp only [Misc.join] at h
        exact absurd (by rw [h]; simp) hf1
      · simp only [Misc.join] at h
        exact absurd (by rw [← h]; simp) hg1
      · simp only [Misc.join] at h
        obtain ⟨e1, e2⟩ := key f g _ _ hf1 hg1 h
        rw [e1, ih (g2 :: gs) (fun x hx => hf x (List.mem_cons_of_mem _ hx)) (fun x hx => hg x (List.mem_cons_of_mem _ hx))
          (by simp) (by simp) e2]

theorem splitLoop_ne_nil {α : Type} [DecidableEq α] (d : α) (s : List α) : Misc.splitLoop d true s ≠ [] := by
  rw [Misc.splitLoop]
  simp only [Bool.not_true, Bool.false_and, Bool.false_eq_true, if_false]
  split <;> simp

theorem Line.split {parse : List Char → Option K} {sep : Char} {l : List Char} {p : Vec D K} (h : Line parse sep l p) :
    ∀ d : Fin D, ∃ f, (Misc.splitLoop sep true l)[d.val]? = some f ∧ parse f = some (p d) := by
  obtain ⟨fs, hl, hs, hn, h⟩ := h
  obtain ⟨h1, h2⟩ := Misc.C30_split sep l
  have : fs = Misc.splitLoop sep true l := join_inj sep fs _ hs h2 hn (splitLoop_ne_nil sep l) (by rw [h1, hl])
  rw [← this]
  exact h

/-- Enlarge the box to contain the point. -/
def grow (b : Box D K) (p : Vec D K) : Box D K := ⟨fun d => min (b.low d) (p d), fun d => max (b.high d) (p d)⟩

theorem dims_eq (parse : List Char → Option K) (fields : List (List Char)) (p : Vec D K)
    (h : ∀ d : Fin D, ∃ f, fields[d.val]? = some f ∧ parse f = some (p d)) :
    ∀ (l : List (Fin D)) (q : Vec D K) (b : Box D K), dims parse fields l (q, b) =
      .done (some (fun d => if d ∈ l then p d else q d,
        ⟨fun d => if d ∈ l then min (b.low d) (p d) else b.low d, fun d => if d ∈ l then max (b.high d) (p d) else b.high d⟩)) := by
  intro l
  induction l with
  | nil => intro q b; simp [dims]
  | cons d l ih =>
    intro q b
    obtain ⟨f, hf, hp⟩ := h d
    simp only [dims, dim, hf, hp, Res.bind_done]
    rw [ih]
    congr 3
    · funext e
      by_cases he : e = d
      · subst he; simp
      · simp [he]
    · congr 1
      · funext e
        by_cases he : e = d
        · subst he
          by_cases hl : e ∈ l <;> by_cases hx : p e < b.low e
          · simp [hl, hx, hx.le]
          · simp [hl, hx]
          · simp [hl, hx, hx.le]
          · simp [hl, hx, not_lt.mp hx]
        · by_cases hx : p d < b.low d <;> simp [he, hx]
      · funext e
        by_cases he : e = d
        · subst he
          by_cases hl : e ∈ l <;> by_cases hx : b.high e < p e
          · simp [hl, hx, hx.le]
          · simp [hl, hx]
          · simp [hl, hx, hx.le]
          · simp [hl, hx, not_lt.mp hx]
        · by_cases hx : b.high d < p d <;> simp [he, hx]

theorem lines_eq (parse : List Char → Option K) (sep : Char) (u : Vec D K) :
    ∀ (file : List (List Char)) (ps : List (Vec D K)), List.Forall₂ (Line parse sep) file ps → ∀ (pts : List (Vec D K)) (b : Box D K),
      lines parse sep u file (pts, b) = .done (some (pts ++ ps, ps.foldl grow b)) := by
  intro file ps h
  induction h with
  | nil => intro pts b; simp [lines]
  | @cons l p file ps hl _ ih =>
    intro pts b
    simp only [lines, dims_eq parse _ p hl.split, List.mem_finRange, if_true, Res.bind_done]
    rw [ih]
    simp [grow]

theorem foldl_grow_low (ps : List (Vec D K)) : ∀ (b : Box D K) (d : Fin D) (x : K),
    x ≤ (ps.foldl grow b).low d ↔ x ≤ b.low d ∧ ∀ p ∈ ps, x ≤ p d := by
  induction ps with
  | nil => intro b d x; simp
  | cons p ps ih => intro b d x; simp [ih, grow, and_assoc]

theorem foldl_grow_high (ps : List (Vec D K)) : ∀ (b : Box D K) (d : Fin D) (x : K),
    (ps.foldl grow b).high d ≤ x ↔ b.high d ≤ x ∧ ∀ p ∈ ps, p d ≤ x := by
  induction ps with
  | nil => intro b d x; simp
  | cons p ps ih => intro b d x; simp [ih, grow, and_assoc]

/-- **C87.** For a well-formed file, the points are appended in the order of the file, the box contains them, and it is the
smallest box that contains them if no coordinate is above the largest number and in every dimension some coordinate is at
least the smallest positive number. -/
theorem C87_partial (parse : List Char → Option K) (top tiny : K) (sep : Char) (u : Vec D K) (pts : List (Vec D K))
    (file : List (List Char)) (ps : List (Vec D K)) (h : List.Forall₂ (Line parse sep) file ps) :
    ∃ b : Box D K, loadFromFile parse top tiny sep u pts file = .done (some (pts ++ ps, b)) ∧
      (∀ p ∈ ps, ∀ d, b.low d ≤ p d ∧ p d ≤ b.high d) ∧
      ((∀ p ∈ ps, ∀ d, p d ≤ top) → (∀ d, ∃ p ∈ ps, tiny ≤ p d) →
        ∀ c : Box D K, (∀ p ∈ ps, ∀ d, c.low d ≤ p d ∧ p d ≤ c.high d) → ∀ d, c.low d ≤ b.low d ∧ b.high d ≤ c.high d) := by
  refine ⟨_, lines_eq parse sep u file ps h _ _, ?_, ?_⟩
  · intro p hp d
    exact ⟨((foldl_grow_low ps _ d _).mp (le_refl _)).2 p hp, ((foldl_grow_high ps _ d _).mp (le_refl _)).2 p hp⟩
  · intro htop htiny c hc d
    obtain ⟨p, hp, ht⟩ := htiny d
    exact ⟨(foldl_grow_low ps _ d _).mpr ⟨(hc p hp d).1.trans (htop p hp d), fun q hq => (hc q hq d).1⟩,
      (foldl_grow_high ps _ d _).mpr ⟨ht.trans (hc p hp d).2, fun q hq => (hc q hq d).2⟩⟩

/-- **C87 is violated.** If all coordinates of a dimension are below the smallest positive number, the box ends at the smallest
positive number instead of the largest coordinate. -/
theorem C87_violated (parse : List Char → Option K) (top tiny : K) (sep : Char) (u : Vec D K) (pts : List (Vec D K))
    (file : List (List Char)) (ps : List (Vec D K)) (h : List.Forall₂ (Line parse sep) file ps) (d : Fin D)
    (hneg : ∀ p ∈ ps, p d < tiny) :
    ∃ b : Box D K, loadFromFile parse top tiny sep u pts file = .done (some (pts ++ ps, b)) ∧ b.high d = tiny ∧
      ∀ p ∈ ps, p d < b.high d := by
  refine ⟨_, lines_eq parse sep u file ps h _ _, ?_⟩
  have : (ps.foldl grow (⟨fun _ => top, fun _ => tiny⟩ : Box D K)).high d = tiny := by
    apply le_antisymm
    · exact (foldl_grow_high ps _ d _).mpr ⟨le_refl _, fun p hp => (hneg p hp).le⟩
    · exact ((foldl_grow_high ps ⟨fun _ => top, fun _ => tiny⟩ d _).mp (le_refl _)).1
  exact ⟨this, fun p hp => by rw [this]; exact hneg p hp⟩

/-- **C87 (empty file) is violated.** Without points, or if the file does not exist, the box is inverted. -/
theorem C87_empty_violated (parse : List Char → Option K) (top tiny : K) (h : tiny < top) (sep : Char) (u : Vec D K)
    (pts : List (Vec D K)) :
    ∃ b : Box D K, loadFromFile parse top tiny sep u pts [] = .done (some (pts, b)) ∧ ∀ d, b.high d < b.low d :=
  ⟨_, rfl, fun _ => h⟩

/-- **C87 (malformed line) is violated.** A line with less numbers than dimensions is undefined behaviour. -/
theorem C87_short_violated (parse : List Char → Option K) (top tiny : K) (sep : Char) (u : Vec D K) (pts : List (Vec D K))
    (fs : List (List Char)) (hs : ∀ f ∈ fs, sep ∉ f) (hn : fs ≠ []) (hp : ∀ f ∈ fs, ∃ x, parse f = some x) (hD : fs.length < D)
    (rest : List (List Char)) : loadFromFile parse top tiny sep u pts (Misc.join sep fs :: rest) = .ub := by
  obtain ⟨h1, h2⟩ := Misc.C30_split sep (Misc.join sep fs)
  have hsplit : Misc.splitLoop sep true (Misc.join sep fs) = fs := join_inj sep _ fs h2 hs (splitLoop_ne_nil _ _) hn h1
  have key : ∀ (l : List (Fin D)) (s : Vec D K × Box D K), (∃ d ∈ l, fs.length ≤ d.val) → dims parse fs l s = .ub := by
    intro l
    induction l with
    | nil => intro s h; simp at h
    | cons d l ih =>
      intro s h
      rw [dims]
      by_cases hd : fs.length ≤ d.val
      · simp [dim, List.getElem?_eq_none hd]
      · have hlt : d.val < fs.length := not_le.mp hd
        obtain ⟨x, hx⟩ := hp _ (List.getElem_mem hlt)
        simp only [dim, List.getElem?_eq_getElem hlt, hx, Res.bind_done]
        apply ih
        obtain ⟨e, he, h⟩ := h
        rcases List.mem_cons.mp he with rfl | he
        · exact absurd h hd
        · exact ⟨e, he, h⟩
  rw [loadFromFile, lines, hsplit, key _ _ ⟨⟨fs.length, hD⟩, List.mem_finRange _, le_refl _⟩, Res.bind_ub]

/-- A reader of one-digit numbers with an optional sign. -/
def digit : List Char → Option Int
  | [c] => if c.isDigit then some (c.toNat - 48) else none
  | ['-', c] => if c.isDigit then some (-(c.toNat - 48)) else none
  | _ => none

/-- A file with two points. -/
example : List.Forall₂ (Line (D := 2) digit ' ') ["1 2".toList, "-3 4".toList] [![1, 2], ![-3, 4]] := by
  refine .cons ⟨[['1'], ['2']], by decide, by decide, by decide, ?_⟩ (.cons ⟨[['-', '3'], ['4']], by decide, by decide, by decide, ?_⟩ .nil)
  · intro d; match d with
    | 0 => exact ⟨['1'], rfl, by decide⟩
    | 1 => exact ⟨['2'], rfl, by decide⟩
  · intro d; match d with
    | 0 => exact ⟨['-', '3'], rfl, by decide⟩
    | 1 => exact ⟨['4'], rfl, by decide⟩

/-- A file with one negative point: the box reaches up to the smallest positive number. -/
example : ∃ b : Box 1 Int, loadFromFile digit 100 1 ' ' (fun _ => 0) [] ["-3".toList] = .done (some ([fun _ => -3], b)) ∧
    b.high 0 = 1 := by
  obtain ⟨b, h1, h2, _⟩ := C87_violated (D := 1) digit 100 1 ' ' (fun _ => 0) [] ["-3".toList] [fun _ => -3]
    (.cons ⟨[['-', '3']], by decide, by decide, by decide, fun d => ⟨['-', '3'], by match d with | 0 => rfl, by show digit ['-', '3'] = some (-3); decide⟩⟩ .nil) 0 (by simp)
  exact ⟨b, h1, h2⟩

end Load
end Verif
