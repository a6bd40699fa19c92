import Verif.Lemmas.InSimplexFP3
import Verif.Lemmas.KernelRfl

/-!
# The point in simplex test with `double` and `float`

`GeometryCore::inSimplex` computes the barycentric coordinates of a point with rounded operations. With integer coordinates that are small enough, the
test accepts the vertices and all points of the simplex that are not on the face opposite to the first vertex, and rejects all points outside. Points on
that face may be rejected, and with larger coordinates points in the interior are rejected and points outside are accepted.
-/
namespace Verif
namespace FPM

/-- The two types of the coordinates, with their number of binary digits. -/
def Format (inf : ℚ → ℚ) (p : Nat) (rd : ℚ → ℚ) : Prop := (p = 53 ∧ rd = double inf) ∨ (p = 24 ∧ rd = single inf)

theorem Format.good {inf : ℚ → ℚ} {p : Nat} {rd : ℚ → ℚ} (h : Format inf p rd) : 10 ≤ p ∧ Good p rd := by
  rcases h with ⟨rfl, rfl⟩ | ⟨rfl, rfl⟩
  · exact ⟨by norm_num, good_double inf⟩
  · exact ⟨by norm_num, good_single inf⟩

/-! ### Plane -/

theorem affine2 {s0 s1 s2 : Vec 2 ℚ} (h : Geom.NonDeg2 s0 s1 s2) (q : Vec 2 ℚ) : ∃ b c : ℚ, ∀ i, q i = (1 - b - c) * s0 i + b * s1 i + c * s2 i := by
  have ho := Geom.orient2_ne h
  refine ⟨Geom.orient2 s0 q s2 / Geom.orient2 s0 s1 s2, Geom.orient2 s0 s1 q / Geom.orient2 s0 s1 s2, fun i => ?_⟩
  have e : ∀ o x y : ℚ, o ≠ 0 → (1 - x / o - y / o) * s0 i + x / o * s1 i + y / o * s2 i =
      s0 i + (x * (s1 i - s0 i) + y * (s2 i - s0 i)) / o := by
    intro o x y ho
    field_simp; ring
  rw [e _ _ _ ho, ← sub_eq_iff_eq_add', eq_div_iff ho]
  fin_cases i
  · simp only [Geom.orient2, Fin.zero_eta]; ring
  · simp only [Geom.orient2, Fin.mk_one]; ring

/-- **C101 (2D).** Points of the triangle that are not on the edge opposite to the first vertex are accepted.
Missing: other coordinates, points on this edge. -/
theorem C101_inside2_partial {inf : ℚ → ℚ} {p : Nat} {rd : ℚ → ℚ} (hf : Format inf p rd) {N : Nat} (hN : 1024 * N ^ 4 ≤ 2 ^ p)
    {q s0 s1 s2 : Vec 2 ℚ} (hq : ∀ i, ∃ n : Int, q i = n ∧ |n| ≤ N) (h0 : ∀ i, ∃ n : Int, s0 i = n ∧ |n| ≤ N) (h1 : ∀ i, ∃ n : Int, s1 i = n ∧ |n| ≤ N)
    (h2 : ∀ i, ∃ n : Int, s2 i = n ∧ |n| ≤ N) (hnd : Geom.NonDeg2 s0 s1 s2) {a b c : ℚ} (ha : 0 < a) (hb : 0 ≤ b) (hc : 0 ≤ c) (hs : a + b + c = 1)
    (he : ∀ i, q i = a * s0 i + b * s1 i + c * s2 i) : inSimplex2 rd q s0 s1 s2 = true := by
  have e : a = 1 - b - c := by linarith
  rw [e] at he
  exact (simplex2 hf.good.1 hf.good.2 hN hq h0 h1 h2 hnd he).2.1 hb hc (by linarith)

/-- **C101 (2D).** The vertices are accepted. Missing: other coordinates. -/
theorem C101_vertex2_partial {inf : ℚ → ℚ} {p : Nat} {rd : ℚ → ℚ} (hf : Format inf p rd) {N : Nat} (hN : 1024 * N ^ 4 ≤ 2 ^ p)
    {q s0 s1 s2 : Vec 2 ℚ} (h0 : ∀ i, ∃ n : Int, s0 i = n ∧ |n| ≤ N) (h1 : ∀ i, ∃ n : Int, s1 i = n ∧ |n| ≤ N)
    (h2 : ∀ i, ∃ n : Int, s2 i = n ∧ |n| ≤ N) (hnd : Geom.NonDeg2 s0 s1 s2) (hq : q = s0 ∨ q = s1 ∨ q = s2) : inSimplex2 rd q s0 s1 s2 = true := by
  rcases hq with rfl | rfl | rfl
  · exact (simplex2 hf.good.1 hf.good.2 hN h0 h0 h1 h2 hnd (b := 0) (c := 0) (fun i => by ring)).2.1 le_rfl le_rfl (by norm_num)
  · exact (simplex2 hf.good.1 hf.good.2 hN h1 h0 h1 h2 hnd (b := 1) (c := 0) (fun i => by ring)).2.2 (Or.inl ⟨rfl, rfl⟩)
  · exact (simplex2 hf.good.1 hf.good.2 hN h2 h0 h1 h2 hnd (b := 0) (c := 1) (fun i => by ring)).2.2 (Or.inr ⟨rfl, rfl⟩)

/-- **C101 (2D).** Points outside of the triangle are rejected. Missing: other coordinates. -/
theorem C101_outside2_partial {inf : ℚ → ℚ} {p : Nat} {rd : ℚ → ℚ} (hf : Format inf p rd) {N : Nat} (hN : 1024 * N ^ 4 ≤ 2 ^ p)
    {q s0 s1 s2 : Vec 2 ℚ} (hq : ∀ i, ∃ n : Int, q i = n ∧ |n| ≤ N) (h0 : ∀ i, ∃ n : Int, s0 i = n ∧ |n| ≤ N) (h1 : ∀ i, ∃ n : Int, s1 i = n ∧ |n| ≤ N)
    (h2 : ∀ i, ∃ n : Int, s2 i = n ∧ |n| ≤ N) (hnd : Geom.NonDeg2 s0 s1 s2)
    (hout : ¬∃ a b c : ℚ, 0 ≤ a ∧ 0 ≤ b ∧ 0 ≤ c ∧ a + b + c = 1 ∧ ∀ i, q i = a * s0 i + b * s1 i + c * s2 i) : inSimplex2 rd q s0 s1 s2 = false := by
  obtain ⟨b, c, he⟩ := affine2 hnd q
  refine (simplex2 hf.good.1 hf.good.2 hN hq h0 h1 h2 hnd he).1 ?_
  by_contra hc
  simp only [not_or, not_lt] at hc
  exact hout ⟨1 - b - c, b, c, by linarith [hc.2.2], hc.1, hc.2.1, by ring, he⟩

/-- Integer points as in the hypotheses. -/
theorem intPt2 (N : Nat) (x y : Int) (hx : |x| ≤ N) (hy : |y| ≤ N) : ∀ i, ∃ n : Int, (![(x : ℚ), (y : ℚ)] : Vec 2 ℚ) i = n ∧ |n| ≤ N := by
  intro i
  fin_cases i
  · exact ⟨x, rfl, hx⟩
  · exact ⟨y, rfl, hy⟩

theorem intPt3 (N : Nat) (x y z : Int) (hx : |x| ≤ N) (hy : |y| ≤ N) (hz : |z| ≤ N) :
    ∀ i, ∃ n : Int, (![(x : ℚ), (y : ℚ), (z : ℚ)] : Vec 3 ℚ) i = n ∧ |n| ≤ N := by
  intro i
  fin_cases i
  · exact ⟨x, rfl, hx⟩
  · exact ⟨y, rfl, hy⟩
  · exact ⟨z, rfl, hz⟩

/-- The hypotheses can be met: coordinates up to 1722 with `double`, up to 11 with `float`. -/
example (inf : ℚ → ℚ) : inSimplex2 (double inf) ![((400 : Int) : ℚ), ((400 : Int) : ℚ)] ![((-1722 : Int) : ℚ), ((0 : Int) : ℚ)] ![((1722 : Int) : ℚ), ((-1722 : Int) : ℚ)]
    ![((1722 : Int) : ℚ), ((1722 : Int) : ℚ)] = true := by
  refine C101_inside2_partial (inf := inf) (p := 53) (N := 1722) (Or.inl ⟨rfl, rfl⟩) (by norm_num) (intPt2 1722 400 400 (by norm_num) (by norm_num))
    (intPt2 1722 (-1722) 0 (by norm_num) (by norm_num)) (intPt2 1722 1722 (-1722) (by norm_num) (by norm_num))
    (intPt2 1722 1722 1722 (by norm_num) (by norm_num)) ?_ (a := 661 / 1722) (b := 661 / 3444) (c := 1461 / 3444) (by norm_num) (by norm_num) (by norm_num)
    (by norm_num) ?_
  · intro a b he
    have e1 := he 0
    have e2 := he 1
    simp at e1 e2
    constructor
    · linarith
    · linarith
  · intro i
    fin_cases i
    · simp; norm_num
    · simp; norm_num

example (inf : ℚ → ℚ) : inSimplex2 (single inf) ![((3 : Int) : ℚ), ((3 : Int) : ℚ)] ![((0 : Int) : ℚ), ((0 : Int) : ℚ)] ![((5 : Int) : ℚ), ((0 : Int) : ℚ)]
    ![((0 : Int) : ℚ), ((5 : Int) : ℚ)] = false := by
  refine C101_outside2_partial (inf := inf) (p := 24) (N := 11) (Or.inr ⟨rfl, rfl⟩) (by norm_num) (intPt2 11 3 3 (by norm_num) (by norm_num))
    (intPt2 11 0 0 (by norm_num) (by norm_num)) (intPt2 11 5 0 (by norm_num) (by norm_num)) (intPt2 11 0 5 (by norm_num) (by norm_num)) ?_ ?_
  · simp [Geom.NonDeg2]
  · rintro ⟨a, b, c, ha, hb, hc, hs, he⟩
    have e0 := he 0
    have e1 := he 1
    simp at e0 e1
    linarith

/-- Not for points on the edge opposite to the first vertex: this integer point is on the edge and rejected. -/
theorem C101_edge2_violated (inf : ℚ → ℚ) :
    (∀ i, (![3, 2] : Vec 2 ℚ) i = 0 * (![1, -5] : Vec 2 ℚ) i + 2 / 9 * (![-4, 2] : Vec 2 ℚ) i + 7 / 9 * (![5, 2] : Vec 2 ℚ) i) ∧
      inSimplex2 (double inf) ![3, 2] ![1, -5] ![-4, 2] ![5, 2] = false := by
  constructor
  · intro i
    fin_cases i
    · simp; norm_num
    · simp; norm_num
  · kernel_rfl

/-- Not for larger integer coordinates: this point is in the interior and rejected. -/
theorem C101_inside2_violated (inf : ℚ → ℚ) :
    (∃ a b c : ℚ, 0 < a ∧ 0 < b ∧ 0 < c ∧ a + b + c = 1 ∧ ∀ i, (![1379721, 1068868] : Vec 2 ℚ) i =
      a * (![445176, 134167] : Vec 2 ℚ) i + b * (![1379722, 1068869] : Vec 2 ℚ) i + c * (![2314267, 2003571] : Vec 2 ℚ) i) ∧
      inSimplex2 (double inf) ![1379721, 1068868] ![445176, 134167] ![1379722, 1068869] ![2314267, 2003571] = false := by
  constructor
  · refine ⟨157 / 934702, 934389 / 934702, 78 / 467351, by norm_num, by norm_num, by norm_num, by norm_num, ?_⟩
    intro i
    fin_cases i
    · simp; norm_num
    · simp; norm_num
  · kernel_rfl

/-- Not for larger integer coordinates: this point is outside and accepted. -/
theorem C101_outside2_violated (inf : ℚ → ℚ) :
    (¬∃ a b c : ℚ, 0 ≤ a ∧ 0 ≤ b ∧ 0 ≤ c ∧ a + b + c = 1 ∧ ∀ i, (![101546, 115421] : Vec 2 ℚ) i =
      a * (![50811, 64787] : Vec 2 ℚ) i + b * (![101545, 115420] : Vec 2 ℚ) i + c * (![152280, 166054] : Vec 2 ℚ) i) ∧
      inSimplex2 (double inf) ![101546, 115421] ![50811, 64787] ![101545, 115420] ![152280, 166054] = true := by
  constructor
  · rintro ⟨a, b, c, ha, hb, hc, hs, he⟩
    have e0 := he 0
    have e1 := he 1
    simp at e0 e1
    linarith
  · kernel_rfl

/-! ### Space -/

theorem affine3 {s0 s1 s2 s3 : Vec 3 ℚ} (h : Geom.NonDeg3 s0 s1 s2 s3) (q : Vec 3 ℚ) :
    ∃ b c d : ℚ, ∀ i, q i = (1 - b - c - d) * s0 i + b * s1 i + c * s2 i + d * s3 i := by
  have ho := Geom.orient3_ne h
  refine ⟨Geom.orient3 s0 q s2 s3 / Geom.orient3 s0 s1 s2 s3, Geom.orient3 s0 s1 q s3 / Geom.orient3 s0 s1 s2 s3,
    Geom.orient3 s0 s1 s2 q / Geom.orient3 s0 s1 s2 s3, fun i => ?_⟩
  have e : ∀ o x y z : ℚ, o ≠ 0 → (1 - x / o - y / o - z / o) * s0 i + x / o * s1 i + y / o * s2 i + z / o * s3 i =
      s0 i + (x * (s1 i - s0 i) + y * (s2 i - s0 i) + z * (s3 i - s0 i)) / o := by
    intro o x y z ho
    field_simp; ring
  rw [e _ _ _ _ ho, ← sub_eq_iff_eq_add', eq_div_iff ho]
  fin_cases i
  · simp only [Geom.orient3, Fin.zero_eta]; ring
  · simp only [Geom.orient3, Fin.mk_one]; ring
  · simp only [Geom.orient3, Fin.reduceFinMk]; ring

/-- **C101 (3D).** Points of the tetrahedron that are not on the face opposite to the first vertex are accepted.
Missing: other coordinates, points on this face. -/
theorem C101_inside3_partial {inf : ℚ → ℚ} {p : Nat} {rd : ℚ → ℚ} (hf : Format inf p rd) {N : Nat} (hN : 82944 * N ^ 6 ≤ 2 ^ p)
    {q s0 s1 s2 s3 : Vec 3 ℚ} (hq : ∀ i, ∃ n : Int, q i = n ∧ |n| ≤ N) (h0 : ∀ i, ∃ n : Int, s0 i = n ∧ |n| ≤ N)
    (h1 : ∀ i, ∃ n : Int, s1 i = n ∧ |n| ≤ N) (h2 : ∀ i, ∃ n : Int, s2 i = n ∧ |n| ≤ N) (h3 : ∀ i, ∃ n : Int, s3 i = n ∧ |n| ≤ N)
    (hnd : Geom.NonDeg3 s0 s1 s2 s3) {a b c d : ℚ} (ha : 0 < a) (hb : 0 ≤ b) (hc : 0 ≤ c) (hd : 0 ≤ d) (hs : a + b + c + d = 1)
    (he : ∀ i, q i = a * s0 i + b * s1 i + c * s2 i + d * s3 i) : inSimplex3 rd q s0 s1 s2 s3 = true := by
  have e : a = 1 - b - c - d := by linarith
  rw [e] at he
  exact (simplex3 hf.good.1 hf.good.2 hN hq h0 h1 h2 h3 hnd he).2.1 hb hc hd (by linarith)

/-- **C101 (3D).** The vertices are accepted. Missing: other coordinates. -/
theorem C101_vertex3_partial {inf : ℚ → ℚ} {p : Nat} {rd : ℚ → ℚ} (hf : Format inf p rd) {N : Nat} (hN : 82944 * N ^ 6 ≤ 2 ^ p)
    {q s0 s1 s2 s3 : Vec 3 ℚ} (h0 : ∀ i, ∃ n : Int, s0 i = n ∧ |n| ≤ N) (h1 : ∀ i, ∃ n : Int, s1 i = n ∧ |n| ≤ N)
    (h2 : ∀ i, ∃ n : Int, s2 i = n ∧ |n| ≤ N) (h3 : ∀ i, ∃ n : Int, s3 i = n ∧ |n| ≤ N) (hnd : Geom.NonDeg3 s0 s1 s2 s3)
    (hq : q = s0 ∨ q = s1 ∨ q = s2 ∨ q = s3) : inSimplex3 rd q s0 s1 s2 s3 = true := by
  rcases hq with rfl | rfl | rfl | rfl
  · exact (simplex3 hf.good.1 hf.good.2 hN h0 h0 h1 h2 h3 hnd (b := 0) (c := 0) (d := 0) (fun i => by ring)).2.1 le_rfl le_rfl le_rfl (by norm_num)
  · exact (simplex3 hf.good.1 hf.good.2 hN h1 h0 h1 h2 h3 hnd (b := 1) (c := 0) (d := 0) (fun i => by ring)).2.2 (Or.inl ⟨rfl, rfl, rfl⟩)
  · exact (simplex3 hf.good.1 hf.good.2 hN h2 h0 h1 h2 h3 hnd (b := 0) (c := 1) (d := 0) (fun i => by ring)).2.2 (Or.inr (Or.inl ⟨rfl, rfl, rfl⟩))
  · exact (simplex3 hf.good.1 hf.good.2 hN h3 h0 h1 h2 h3 hnd (b := 0) (c := 0) (d := 1) (fun i => by ring)).2.2 (Or.inr (Or.inr ⟨rfl, rfl, rfl⟩))

/-- **C101 (3D).** Points outside of the tetrahedron are rejected. Missing: other coordinates. -/
theorem C101_outside3_partial {inf : ℚ → ℚ} {p : Nat} {rd : ℚ → ℚ} (hf : Format inf p rd) {N : Nat} (hN : 82944 * N ^ 6 ≤ 2 ^ p)
    {q s0 s1 s2 s3 : Vec 3 ℚ} (hq : ∀ i, ∃ n : Int, q i = n ∧ |n| ≤ N) (h0 : ∀ i, ∃ n : Int, s0 i = n ∧ |n| ≤ N)
    (h1 : ∀ i, ∃ n : Int, s1 i = n ∧ |n| ≤ N) (h2 : ∀ i, ∃ n : Int, s2 i = n ∧ |n| ≤ N) (h3 : ∀ i, ∃ n : Int, s3 i = n ∧ |n| ≤ N)
    (hnd : Geom.NonDeg3 s0 s1 s2 s3)
    (hout : ¬∃ a b c d : ℚ, 0 ≤ a ∧ 0 ≤ b ∧ 0 ≤ c ∧ 0 ≤ d ∧ a + b + c + d = 1 ∧ ∀ i, q i = a * s0 i + b * s1 i + c * s2 i + d * s3 i) :
    inSimplex3 rd q s0 s1 s2 s3 = false := by
  obtain ⟨b, c, d, he⟩ := affine3 hnd q
  refine (simplex3 hf.good.1 hf.good.2 hN hq h0 h1 h2 h3 hnd he).1 ?_
  by_contra hc
  simp only [not_or, not_lt] at hc
  exact hout ⟨1 - b - c - d, b, c, d, by linarith [hc.2.2.2], hc.1, hc.2.1, hc.2.2.1, by ring, he⟩

/-- The hypotheses can be met: coordinates up to 69 with `double`. -/
example (inf : ℚ → ℚ) : inSimplex3 (double inf) ![((1 : Int) : ℚ), ((2 : Int) : ℚ), ((3 : Int) : ℚ)] ![((-69 : Int) : ℚ), ((-69 : Int) : ℚ), ((-69 : Int) : ℚ)]
    ![((69 : Int) : ℚ), ((0 : Int) : ℚ), ((0 : Int) : ℚ)] ![((0 : Int) : ℚ), ((69 : Int) : ℚ), ((0 : Int) : ℚ)] ![((0 : Int) : ℚ), ((0 : Int) : ℚ), ((69 : Int) : ℚ)] = true := by
  refine C101_inside3_partial (inf := inf) (p := 53) (N := 69) (Or.inl ⟨rfl, rfl⟩) (by norm_num)
    (intPt3 69 1 2 3 (by norm_num) (by norm_num) (by norm_num)) (intPt3 69 (-69) (-69) (-69) (by norm_num) (by norm_num) (by norm_num))
    (intPt3 69 69 0 0 (by norm_num) (by norm_num) (by norm_num)) (intPt3 69 0 69 0 (by norm_num) (by norm_num) (by norm_num))
    (intPt3 69 0 0 69 (by norm_num) (by norm_num) (by norm_num)) ?_ (a := 63 / 276) (b := 67 / 276) (c := 71 / 276) (d := 75 / 276) (by norm_num) (by norm_num)
    (by norm_num) (by norm_num) (by norm_num) ?_
  · intro a b c he
    have e1 := he 0
    have e2 := he 1
    have e3 := he 2
    simp at e1 e2 e3
    refine ⟨by linarith, by linarith, by linarith⟩
  · intro i
    fin_cases i
    · simp; norm_num
    · simp; norm_num
    · simp; norm_num

/-- Not for points on the face opposite to the first vertex: this integer point is on the face and rejected. -/
theorem C101_face3_violated (inf : ℚ → ℚ) :
    (∀ i, (![0, 2, -1] : Vec 3 ℚ) i = 0 * (![-1, 0, -2] : Vec 3 ℚ) i + 10 / 21 * (![2, 3, -3] : Vec 3 ℚ) i + 3 / 7 * (![-2, 2, 1] : Vec 3 ℚ) i +
      2 / 21 * (![-1, -3, 0] : Vec 3 ℚ) i) ∧ inSimplex3 (double inf) ![0, 2, -1] ![-1, 0, -2] ![2, 3, -3] ![-2, 2, 1] ![-1, -3, 0] = false := by
  constructor
  · intro i
    fin_cases i
    · simp; norm_num
    · simp; norm_num
    · simp; norm_num
  · kernel_rfl

/-- Not for larger integer coordinates: this point is in the interior and rejected. -/
theorem C101_inside3_violated (inf : ℚ → ℚ) :
    (∃ a b c d : ℚ, 0 < a ∧ 0 < b ∧ 0 < c ∧ 0 < d ∧ a + b + c + d = 1 ∧ ∀ i, (![89142, 86032, 75059] : Vec 3 ℚ) i =
      a * (![43896, 64302, 28215] : Vec 3 ℚ) i + b * (![73805, 79388, 58196] : Vec 3 ℚ) i + c * (![104475, 92674, 91918] : Vec 3 ℚ) i +
      d * (![134385, 107761, 121899] : Vec 3 ℚ) i) ∧
      inSimplex3 (double inf) ![89142, 86032, 75059] ![43896, 64302, 28215] ![73805, 79388, 58196] ![104475, 92674, 91918] ![134385, 107761, 121899] = false := by
  constructor
  · refine ⟨23841 / 463663, 4783614 / 10664249, 4783426 / 10664249, 548866 / 10664249, by norm_num, by norm_num, by norm_num, by norm_num, by norm_num, ?_⟩
    intro i
    fin_cases i
    · simp; norm_num
    · simp; norm_num
    · simp; norm_num
  · kernel_rfl

/-- Not for larger integer coordinates: this point is outside and accepted. -/
theorem C101_outside3_violated (inf : ℚ → ℚ) :
    (¬∃ a b c d : ℚ, 0 ≤ a ∧ 0 ≤ b ∧ 0 ≤ c ∧ 0 ≤ d ∧ a + b + c + d = 1 ∧ ∀ i, (![80113, 49925, 91824] : Vec 3 ℚ) i =
      a * (![61913, 32676, 39509] : Vec 3 ℚ) i + b * (![84612, 54086, 104660] : Vec 3 ℚ) i + c * (![75613, 45762, 78984] : Vec 3 ℚ) i +
      d * (![98313, 67171, 144134] : Vec 3 ℚ) i) ∧
      inSimplex3 (double inf) ![80113, 49925, 91824] ![61913, 32676, 39509] ![84612, 54086, 104660] ![75613, 45762, 78984] ![98313, 67171, 144134] = true := by
  constructor
  · rintro ⟨a, b, c, d, ha, hb, hc, hd, hs, he⟩
    have e0 := he 0
    have e1 := he 1
    have e2 := he 2
    simp at e0 e1 e2
    linarith
  · kernel_rfl

end FPM
end Verif
