import Mathlib.Tactic.Tauto
import Verif.Model.Classify

/-!
# C100: the type under which the value of a trait is stored
-/
namespace Verif
namespace Classify

/-- The texts that a regular expression describes. -/
inductive M : Re → Str → Prop where
  | eps : M .eps []
  | cls {p c} : p c = true → M (.cls p) [c]
  | seq {a b s t} : M a s → M b t → M (.seq a b) (s ++ t)
  | altl {a b s} : M a s → M (.alt a b) s
  | altr {a b s} : M b s → M (.alt a b) s
  | nil {a} : M (.star a) []
  | cons {a s t} : M a s → M (.star a) t → M (.star a) (s ++ t)

theorem nullable_iff : ∀ r : Re, r.nullable = true ↔ M r []
  | .none => ⟨fun h => (by cases h), fun h => (by cases h)⟩
  | .eps => ⟨fun _ => .eps, fun _ => rfl⟩
  | .cls p => ⟨fun h => (by cases h), fun h => (by cases h)⟩
  | .star a => ⟨fun _ => .nil, fun _ => rfl⟩
  | .alt a b => by
    simp only [Re.nullable, Bool.or_eq_true, nullable_iff a, nullable_iff b]
    constructor
    · rintro (h | h)
      · exact .altl h
      · exact .altr h
    · intro h
      cases h with
      | altl h => exact Or.inl h
      | altr h => exact Or.inr h
  | .seq a b => by
    simp only [Re.nullable, Bool.and_eq_true, nullable_iff a, nullable_iff b]
    constructor
    · rintro ⟨h1, h2⟩
      exact M.seq h1 h2
    · intro h
      generalize hs : ([] : Str) = s at h
      cases h with
      | seq h1 h2 =>
        rename_i s t
        obtain ⟨rfl, rfl⟩ := List.append_eq_nil_iff.1 hs.symm
        exact ⟨h1, h2⟩

theorem star_cons {a : Re} {c : Char} {s : Str} (h : M (.star a) (c :: s)) : ∃ s1 s2, s = s1 ++ s2 ∧ M a (c :: s1) ∧ M (.star a) s2 := by
  generalize hr : Re.star a = r at h
  generalize hx : c :: s = x at h
  induction h with
  | eps => cases hr
  | cls _ => cases hr
  | seq _ _ _ _ => cases hr
  | altl _ _ => cases hr
  | altr _ _ => cases hr
  | nil => cases hx
  | cons h1 h2 ih1 ih2 =>
    rename_i a' u v
    cases hr
    cases u with
    | nil => exact ih2 rfl hx
    | cons d u =>
      simp only [List.cons_append, List.cons.injEq] at hx
      obtain ⟨rfl, rfl⟩ := hx
      exact ⟨u, v, rfl, h1, h2⟩

theorem deriv_iff (c : Char) : ∀ (r : Re) (s : Str), M (r.deriv c) s ↔ M r (c :: s)
  | .none, s => ⟨fun h => (by cases h), fun h => (by cases h)⟩
  | .eps, s => ⟨fun h => (by cases h), fun h => (by cases h)⟩
  | .cls p, s => by
    simp only [Re.deriv]
    constructor
    · intro h
      split at h
      · rename_i hp
        cases h
        exact .cls hp
      · cases h
    · intro h
      cases h with
      | cls hp => rw [if_pos hp]; exact .eps
  | .alt a b, s => by
    simp only [Re.deriv]
    constructor
    · intro h
      cases h with
      | altl h => exact .altl ((deriv_iff c a s).1 h)
      | altr h => exact .altr ((deriv_iff c b s).1 h)
    · intro h
      cases h with
      | altl h => exact .altl ((deriv_iff c a s).2 h)
      | altr h => exact .altr ((deriv_iff c b s).2 h)
  | .star a, s => by
    simp only [Re.deriv]
    constructor
    · intro h
      cases h with
      | seq h1 h2 => exact M.cons ((deriv_iff c a _).1 h1) h2
    · intro h
      obtain ⟨s1, s2, rfl, h1, h2⟩ := star_cons h
      exact .seq ((deriv_iff c a _).2 h1) h2
  | .seq a b, s => by
    have split_seq : M (.seq a b) (c :: s) ↔ (∃ s1 s2, s = s1 ++ s2 ∧ M a (c :: s1) ∧ M b s2) ∨ M a [] ∧ M b (c :: s) := by
      constructor
      · intro h
        generalize hx : c :: s = x at h
        cases h with
        | seq h1 h2 =>
          rename_i u v
          cases u with
          | nil =>
            right
            simp only [List.nil_append] at hx
            rw [List.nil_append]
            exact ⟨h1, h2⟩
          | cons d u =>
            simp only [List.cons_append, List.cons.injEq] at hx
            obtain ⟨rfl, rfl⟩ := hx
            exact Or.inl ⟨u, v, rfl, h1, h2⟩
      · rintro (⟨s1, s2, rfl, h1, h2⟩ | ⟨h1, h2⟩)
        · exact M.seq h1 h2
        · exact M.seq h1 h2
    have e1 : M (.seq (a.deriv c) b) s ↔ ∃ s1 s2, s = s1 ++ s2 ∧ M a (c :: s1) ∧ M b s2 := by
      constructor
      · intro h
        cases h with
        | seq h1 h2 => exact ⟨_, _, rfl, (deriv_iff c a _).1 h1, h2⟩
      · rintro ⟨s1, s2, rfl, h1, h2⟩
        exact .seq ((deriv_iff c a _).2 h1) h2
    simp only [Re.deriv]
    rw [split_seq, ← nullable_iff a, ← e1, ← deriv_iff c b s]
    split
    · rename_i hn
      constructor
      · intro h
        cases h with
        | altl h => exact Or.inl h
        | altr h => exact Or.inr ⟨hn, h⟩
      · rintro (h | ⟨_, h⟩)
        · exact .altl h
        · exact .altr h
    · rename_i hn
      constructor
      · exact Or.inl
      · rintro (h | ⟨h, _⟩)
        · exact h
        · exact absurd h hn

theorem run_iff : ∀ (s : Str) (r : Re), r.run s = true ↔ M r s
  | [], r => nullable_iff r
  | c :: s, r => by rw [Re.run, run_iff s, deriv_iff]

theorem M_seq {a b : Re} {x : Str} : M (.seq a b) x ↔ ∃ s t, x = s ++ t ∧ M a s ∧ M b t := by
  constructor
  · intro h
    cases h with
    | seq h1 h2 => exact ⟨_, _, rfl, h1, h2⟩
  · rintro ⟨s, t, rfl, h1, h2⟩
    exact .seq h1 h2

theorem M_alt {a b : Re} {x : Str} : M (.alt a b) x ↔ M a x ∨ M b x := by
  constructor
  · intro h
    cases h with
    | altl h => exact Or.inl h
    | altr h => exact Or.inr h
  · rintro (h | h)
    · exact .altl h
    · exact .altr h

theorem M_eps {x : Str} : M .eps x ↔ x = [] := ⟨fun h => (by cases h; rfl), fun h => h ▸ .eps⟩

theorem M_cls {p : Char → Bool} {x : Str} : M (.cls p) x ↔ ∃ c, x = [c] ∧ p c = true := by
  constructor
  · intro h
    cases h with
    | cls h => exact ⟨_, rfl, h⟩
  · rintro ⟨c, rfl, h⟩
    exact .cls h

theorem M_star_cls {p : Char → Bool} : ∀ {x : Str}, M (.star (.cls p)) x ↔ ∀ c ∈ x, p c = true
  | [] => ⟨fun _ c h => (by cases h), fun _ => .nil⟩
  | c :: x => by
    constructor
    · intro h
      obtain ⟨s1, s2, rfl, h1, h2⟩ := star_cons h
      cases h1
      rename_i hc
      have := M_star_cls.1 h2
      simpa [hc] using this
    · intro h
      exact M.cons (s := [c]) (.cls (h c (by simp))) (M_star_cls.2 (fun d hd => h d (by simp [hd])))

theorem M_plus_cls {p : Char → Bool} {x : Str} : M (.plus (.cls p)) x ↔ x ≠ [] ∧ ∀ c ∈ x, p c = true := by
  unfold Re.plus
  rw [M_seq]
  constructor
  · rintro ⟨s, t, rfl, h1, h2⟩
    obtain ⟨c, rfl, hc⟩ := M_cls.1 h1
    refine ⟨by simp, ?_⟩
    have := M_star_cls.1 h2
    simpa [hc] using this
  · rintro ⟨h1, h2⟩
    cases x with
    | nil => exact absurd rfl h1
    | cons c x => exact ⟨[c], x, rfl, .cls (h2 c (by simp)), M_star_cls.2 fun d hd => h2 d (by simp [hd])⟩

theorem M_opt {a : Re} {x : Str} : M a.opt x ↔ M a x ∨ x = [] := by unfold Re.opt; rw [M_alt, M_eps]

theorem M_one {d : Char} {x : Str} : M (.one d) x ↔ x = [d] := by
  unfold Re.one
  rw [M_cls]
  constructor
  · rintro ⟨c, rfl, h⟩
    rw [eq_of_beq h]
  · rintro rfl
    exact ⟨d, rfl, by simp⟩

theorem digit_class {c : Char} (h : digit c = true) : signClass c = true := by
  unfold digit at h
  unfold signClass
  have h := of_decide_eq_true h
  have e0 : '0'.toNat = 48 := rfl
  have e9 : '9'.toNat = 57 := rfl
  have e1 : '('.toNat = 40 := rfl
  have e2 : '|'.toNat = 124 := rfl
  have : decide ('('.toNat ≤ c.toNat ∧ c.toNat ≤ '|'.toNat) = true := decide_eq_true (by omega)
  rw [this]; rfl

theorem isInt_iff {s : Str} : isInt s = true ↔ (∃ c, s = [c] ∧ digit c = true) ∨
    ∃ c r, s = c :: r ∧ signClass c = true ∧ r ≠ [] ∧ ∀ d ∈ r, digit d = true := by
  have hre : intRe.run s = true ↔ ∃ c r, s = c :: r ∧ signClass c = true ∧ r ≠ [] ∧ ∀ d ∈ r, digit d = true := by
    unfold intRe
    rw [run_iff, M_seq]
    constructor
    · rintro ⟨a, b, rfl, h1, h2⟩
      obtain ⟨c, rfl, hc⟩ := M_cls.1 h1
      obtain ⟨h3, h4⟩ := M_plus_cls.1 h2
      exact ⟨c, b, rfl, hc, h3, h4⟩
    · rintro ⟨c, r, rfl, hc, h3, h4⟩
      exact ⟨[c], r, rfl, .cls hc, M_plus_cls.2 ⟨h3, h4⟩⟩
  unfold isInt
  rw [Bool.and_eq_true, Bool.or_eq_true, hre]
  constructor
  · rintro ⟨_, h | h⟩
    · left
      unfold oneDigit at h
      split at h
      · exact ⟨_, rfl, h⟩
      · cases h
    · exact Or.inr h
  · rintro (⟨c, rfl, hc⟩ | ⟨c, r, rfl, h⟩)
    · exact ⟨rfl, Or.inl hc⟩
    · exact ⟨rfl, Or.inr ⟨c, r, rfl, h⟩⟩

theorem natOf_eq (s : Str) : natOf s = Nat.ofDigitChars 10 s 0 := Nat.ofDigitChars_eq_foldl.symm

theorem digit_of_isDigit {c : Char} (h : c.isDigit = true) : digit c = true := by
  unfold digit
  rw [decide_eq_true_eq]
  simp only [Char.isDigit, Bool.and_eq_true, decide_eq_true_eq] at h
  exact h

theorem toDigits_digit {n : Nat} : ∀ c ∈ Nat.toDigits 10 n, digit c = true :=
  fun _ hc => digit_of_isDigit (Nat.isDigit_of_mem_toDigits (by decide) (by decide) hc)

theorem takeWhile_all {p : Char → Bool} {a : Str} (h : ∀ c ∈ a, p c = true) : a.takeWhile p = a := by
  induction a with
  | nil => rfl
  | cons c a ih => rw [List.takeWhile_cons, h c (by simp), if_pos rfl, ih fun d hd => h d (by simp [hd])]

theorem takeWhile_stop {p : Char → Bool} {a b : Str} (h : ∀ c ∈ a, p c = true) {c : Char} (hc : p c = false) :
    (a ++ c :: b).takeWhile p = a ∧ (a ++ c :: b).dropWhile p = c :: b := by
  induction a with
  | nil => simp [hc]
  | cons d a ih =>
    obtain ⟨h1, h2⟩ := ih fun d hd => h d (by simp [hd])
    simp [h d (by simp), h1, h2]

theorem sign_digit {c : Char} {s : Str} (h : digit c = true) : sign (c :: s) = (1, c :: s) := by
  have h1 : c ≠ '-' := by rintro rfl; exact absurd h (by decide)
  have h2 : c ≠ '+' := by rintro rfl; exact absurd h (by decide)
  simp [sign, h1, h2]

/-- The decimal representation of an integer, as `std::to_string` and streams print it. -/
def printed (v : Int) : Str := (if v < 0 then ['-'] else []) ++ Nat.toDigits 10 v.natAbs

/-- **C100 (partial).** Every printed integer in the range of `long` is stored as that integer. -/
theorem C100_int_partial (v : Int) (h1 : -(2 ^ 63) ≤ v) (h2 : v < 2 ^ 63) : bsonValue (printed v) = .done (.long v) := by
  have hne : Nat.toDigits 10 v.natAbs ≠ [] := Nat.toDigits_ne_nil
  obtain ⟨c, r, hcr⟩ := List.exists_cons_of_ne_nil hne
  have hall := toDigits_digit (n := v.natAbs)
  have hval : natOf (Nat.toDigits 10 v.natAbs) = v.natAbs := by rw [natOf_eq, Nat.ofDigitChars_ten_toDigits]
  have hint : isInt (printed v) = true := by
    rw [isInt_iff]
    unfold printed
    split
    · exact Or.inr ⟨'-', _, rfl, by decide, hne, hall⟩
    · rw [hcr] at hall ⊢
      cases r with
      | nil => exact Or.inl ⟨c, rfl, hall c (by simp)⟩
      | cons d r => exact Or.inr ⟨c, d :: r, rfl, digit_class (hall c (by simp)), by simp, fun x hx => hall x (List.mem_cons_of_mem _ hx)⟩
  have hst : stol (printed v) = .done v := by
    unfold stol printed
    by_cases hv : v < 0
    · rw [if_pos hv]
      have hs : sign (['-'] ++ Nat.toDigits 10 v.natAbs) = (-1, Nat.toDigits 10 v.natAbs) := rfl
      rw [hs]
      dsimp only
      rw [takeWhile_all hall, if_neg hne, hval]
      have : (-1 : Int) * (v.natAbs : Int) = v := by omega
      rw [this, if_pos ⟨h1, h2⟩]
    · rw [if_neg hv]
      have hs : sign ([] ++ Nat.toDigits 10 v.natAbs) = (1, Nat.toDigits 10 v.natAbs) := by
        rw [List.nil_append, hcr]
        exact sign_digit (hall c (by rw [hcr]; simp))
      rw [hs]
      dsimp only
      rw [takeWhile_all hall, if_neg hne, hval]
      have : (1 : Int) * (v.natAbs : Int) = v := by omega
      rw [this, if_pos ⟨h1, h2⟩]
  unfold bsonValue
  rw [if_pos hint, hst]
  rfl

/-- What the expression for floating point numbers accepts: any character of the class, a number that begins with a digit other than 0 or
with a point, and perhaps an exponent. -/
theorem isFloat_iff {s : Str} : isFloat s = true ↔ (∃ c, s = [c] ∧ digit c = true) ∨ ∃ c m e, s = c :: (m ++ e) ∧ signClass c = true ∧
    ((∃ d a p b, m = d :: (a ++ (p ++ b)) ∧ digit1 d = true ∧ (∀ x ∈ a, digit x = true) ∧ (p = ['.'] ∨ p = []) ∧ ∀ x ∈ b, digit x = true) ∨
      ∃ b, m = '.' :: b ∧ b ≠ [] ∧ ∀ x ∈ b, digit x = true) ∧
    ((∃ x y z, e = x :: (y ++ z) ∧ (x = 'E' ∨ x = 'e') ∧ (y = ['+'] ∨ y = ['-'] ∨ y = []) ∧ z ≠ [] ∧ ∀ w ∈ z, digit w = true) ∨ e = []) := by
  have hre : floatRe.run s = true ↔ ∃ c m e, s = c :: (m ++ e) ∧ signClass c = true ∧
    ((∃ d a p b, m = d :: (a ++ (p ++ b)) ∧ digit1 d = true ∧ (∀ x ∈ a, digit x = true) ∧ (p = ['.'] ∨ p = []) ∧ ∀ x ∈ b, digit x = true) ∨
      ∃ b, m = '.' :: b ∧ b ≠ [] ∧ ∀ x ∈ b, digit x = true) ∧
    ((∃ x y z, e = x :: (y ++ z) ∧ (x = 'E' ∨ x = 'e') ∧ (y = ['+'] ∨ y = ['-'] ∨ y = []) ∧ z ≠ [] ∧ ∀ w ∈ z, digit w = true) ∨ e = []) := by
    unfold floatRe
    rw [run_iff, M_seq]
    simp only [M_seq, M_alt, M_opt, M_one, M_cls, M_star_cls, M_plus_cls]
    constructor
    · rintro ⟨_, _, rfl, ⟨c, rfl, hc⟩, m, e, rfl, hm, he⟩
      refine ⟨c, m, e, rfl, hc, ?_, ?_⟩
      · rcases hm with ⟨_, _, rfl, ⟨d, rfl, hd⟩, a, _, rfl, ha, p, b, rfl, hp, hb⟩ | ⟨_, b, rfl, rfl, hb1, hb2⟩
        · exact Or.inl ⟨d, a, p, b, rfl, hd, ha, hp, hb⟩
        · exact Or.inr ⟨b, rfl, hb1, hb2⟩
      · rcases he with ⟨_, _, rfl, ⟨x, rfl, hx⟩, y, z, rfl, hy, hz1, hz2⟩ | rfl
        · refine Or.inl ⟨x, y, z, rfl, by simpa using hx, ?_, hz1, hz2⟩
          rcases hy with ⟨w, rfl, hw⟩ | rfl
          · simp only [Bool.or_eq_true, beq_iff_eq] at hw
            rcases hw with rfl | rfl <;> simp
          · simp
        · exact Or.inr rfl
    · rintro ⟨c, m, e, rfl, hc, hm, he⟩
      refine ⟨[c], _, rfl, ⟨c, rfl, hc⟩, m, e, rfl, ?_, ?_⟩
      · rcases hm with ⟨d, a, p, b, rfl, hd, ha, hp, hb⟩ | ⟨b, rfl, hb1, hb2⟩
        · exact Or.inl ⟨[d], _, rfl, ⟨d, rfl, hd⟩, a, _, rfl, ha, p, b, rfl, hp, hb⟩
        · exact Or.inr ⟨['.'], b, rfl, rfl, hb1, hb2⟩
      · rcases he with ⟨x, y, z, rfl, hx, hy, hz1, hz2⟩ | rfl
        · refine Or.inl ⟨[x], _, rfl, ⟨x, rfl, by simpa using hx⟩, y, z, rfl, ?_, hz1, hz2⟩
          rcases hy with rfl | rfl | rfl
          · exact Or.inl ⟨_, rfl, rfl⟩
          · exact Or.inl ⟨_, rfl, rfl⟩
          · exact Or.inr rfl
        · exact Or.inr rfl
  unfold isFloat
  rw [Bool.and_eq_true, Bool.or_eq_true, hre]
  constructor
  · rintro ⟨_, h | h⟩
    · left
      unfold oneDigit at h
      split at h
      · exact ⟨_, rfl, h⟩
      · cases h
    · exact Or.inr h
  · rintro (⟨c, rfl, hc⟩ | ⟨c, m, e, rfl, h⟩)
    · exact ⟨rfl, Or.inl hc⟩
    · exact ⟨rfl, Or.inr ⟨c, m, e, rfl, h⟩⟩

/-- **C100 (partial).** A value that does not end with a digit or a point is stored unchanged as text. Missing: text that ends with a digit,
see the violations. -/
theorem C100_text_partial (s : Str) (h : ∀ c, s.getLast? = some c → digit c = false ∧ c ≠ '.') : bsonValue s = .done (.text s) := by
  have last : ∀ {a b : Str}, b ≠ [] → (a ++ b).getLast? = b.getLast? := by
    intro a b hb
    rw [List.getLast?_append]
    cases hl : b.getLast? with
    | none => exact absurd (List.getLast?_eq_none_iff.1 hl) hb
    | some x => rfl
  have digits : ∀ {a b : Str}, b ≠ [] → s = a ++ b → (∀ x ∈ b, digit x = true) → False := by
    intro a b hb hs hd
    cases hl : b.getLast? with
    | none => exact hb (List.getLast?_eq_none_iff.1 hl)
    | some x =>
      have h1 := (h x (by rw [hs, last hb, hl])).1
      rw [hd x (List.mem_of_getLast? hl)] at h1
      cases h1
  have hi : isInt s = false := by
    rw [← Bool.not_eq_true, isInt_iff]
    rintro (⟨c, rfl, hc⟩ | ⟨c, r, rfl, _, hr, hd⟩)
    · exact digits (a := []) (by simp) rfl (by simpa using hc)
    · exact digits (a := [c]) hr rfl hd
  have hf : isFloat s = false := by
    rw [← Bool.not_eq_true, isFloat_iff]
    rintro (⟨c, rfl, hc⟩ | ⟨c, m, e, rfl, hc, hm, he⟩)
    · exact digits (a := []) (by simp) rfl (by simpa using hc)
    · rcases he with ⟨x, y, z, rfl, _, _, hz, hd⟩ | rfl
      · exact digits (a := c :: (m ++ (x :: y))) hz (by simp) hd
      · rcases hm with ⟨d, a, p, b, rfl, hd, ha, hp, hb⟩ | ⟨b, rfl, hb, hd⟩
        · by_cases hb0 : b = []
          · subst hb0
            rcases hp with rfl | rfl
            · have := (h '.' (by rw [List.append_nil, List.append_nil, show c :: (d :: (a ++ ['.'])) = (c :: d :: a) ++ ['.'] by simp, last (by simp)]; rfl)).2
              exact this rfl
            · have h1 : digit d = true := by
                unfold digit1 at hd
                unfold digit
                have hd := of_decide_eq_true hd
                have e0 : '0'.toNat = 48 := rfl
                have e1 : '1'.toNat = 49 := rfl
                exact decide_eq_true (by omega)
              refine digits (a := [c]) (b := d :: a) (by simp) (by simp) fun x hx => ?_
              rcases List.mem_cons.1 hx with rfl | hx
              · exact h1
              · exact ha x hx
          · exact digits (a := c :: d :: (a ++ p)) hb0 (by simp) hb
        · exact digits (a := [c, '.']) hb (by simp) hd
  unfold bsonValue
  rw [hi, hf]
  rfl

theorem digit1_of {c : Char} (h : digit c = true) (h0 : c ≠ '0') : digit1 c = true := by
  unfold digit at h
  unfold digit1
  have h := of_decide_eq_true h
  have e0 : '0'.toNat = 48 := rfl
  have e1 : '1'.toNat = 49 := rfl
  have e9 : '9'.toNat = 57 := rfl
  refine decide_eq_true ⟨?_, h.2⟩
  rcases Nat.lt_or_ge 48 c.toNat with h1 | h1
  · omega
  · exact absurd (Char.ext (UInt32.toNat_inj.1 (show c.val.toNat = ('0' : Char).val.toNat from by
      show c.toNat = '0'.toNat
      omega))) h0

theorem dropWhile_all {p : Char → Bool} {a : Str} (h : ∀ c ∈ a, p c = true) : a.dropWhile p = [] := by
  induction a with
  | nil => rfl
  | cons c a ih => rw [List.dropWhile_cons, h c (by simp), if_pos rfl, ih fun d hd => h d (by simp [hd])]

/-- **C100 (partial).** A number in fixed notation, `a.b` with a sign or without, is stored as that number, if the integer part has a sign and
does not begin with 0, or has no sign and consists of one digit or of several digits the second of which is not 0.
Missing: without the last condition the number is stored as text (`C100_float_violated`). -/
theorem C100_fixed_partial (sg a b : Str) (hsg : sg = [] ∨ sg = ['+'] ∨ sg = ['-']) (ha : ∀ c ∈ a, digit c = true) (hb : ∀ c ∈ b, digit c = true)
    (hb0 : b ≠ []) (h1 : sg ≠ [] → ∃ d r, a = d :: r ∧ d ≠ '0') (h2 : sg = [] → ∃ d r, a = d :: r ∧ r.head? ≠ some '0') :
    bsonValue (sg ++ a ++ '.' :: b) =
      .done (.double ((if sg = ['-'] then -1 else 1) * (Nat.ofDigitChars 10 (a ++ b) 0 : Int)) (-(b.length : Int))) := by
  have hdot : digit '.' = false := by decide
  have hstod : stod (sg ++ a ++ '.' :: b) = .done ((if sg = ['-'] then -1 else 1) * (natOf (a ++ b) : Int), -(b.length : Int)) := by
    have hs : sign (sg ++ a ++ '.' :: b) = ((if sg = ['-'] then -1 else 1), a ++ '.' :: b) := by
      rcases hsg with rfl | rfl | rfl
      · obtain ⟨d, r, rfl, _⟩ := h2 rfl
        exact sign_digit (ha d (by simp))
      · rfl
      · rfl
    unfold stod
    rw [hs]
    dsimp only
    obtain ⟨e1, e2⟩ := takeWhile_stop (b := b) ha hdot
    rw [e1, e2, show fraction ('.' :: b) = (b.takeWhile digit, b.dropWhile digit) from rfl]
    dsimp only
    rw [takeWhile_all hb, dropWhile_all hb, if_neg (by simp [hb0])]
    simp [expOf]
  have hint : isInt (sg ++ a ++ '.' :: b) = false := by
    rw [← Bool.not_eq_true, isInt_iff]
    have hlen : 1 ≤ (sg ++ a).length := by
      rcases hsg with rfl | rfl | rfl
      · obtain ⟨d, r, rfl, _⟩ := h2 rfl; simp
      · simp
      · simp
    rintro (⟨c, hc, _⟩ | ⟨c, r, hc, _, _, hd⟩)
    · have := congrArg List.length hc
      simp only [List.length_append, List.length_cons, List.length_nil] at this hlen
      omega
    · cases hx : sg ++ a with
      | nil => rw [hx] at hlen; simp at hlen
      | cons x xs =>
        rw [hx] at hc
        simp only [List.cons_append, List.cons.injEq] at hc
        have := hd '.' (by rw [← hc.2]; simp)
        rw [hdot] at this
        cases this
  have hfl : isFloat (sg ++ a ++ '.' :: b) = true := by
    rw [isFloat_iff]
    right
    by_cases hs : sg = []
    · obtain ⟨d, r, rfl, hr⟩ := h2 hs
      subst hs
      refine ⟨d, r ++ '.' :: b, [], by simp, digit_class (ha d (by simp)), ?_, Or.inr rfl⟩
      cases r with
      | nil => exact Or.inr ⟨b, rfl, hb0, hb⟩
      | cons e r =>
        exact Or.inl ⟨e, r, ['.'], b, by simp, digit1_of (ha e (by simp)) (by simpa using hr), fun x hx => ha x (by simp [hx]), Or.inl rfl, hb⟩
    · obtain ⟨d, r, rfl, hr⟩ := h1 hs
      have hc : ∃ c, sg = [c] ∧ signClass c = true := by
        rcases hsg with rfl | rfl | rfl
        · exact absurd rfl hs
        · exact ⟨_, rfl, by decide⟩
        · exact ⟨_, rfl, by decide⟩
      obtain ⟨c, rfl, hc⟩ := hc
      exact ⟨c, (d :: r) ++ '.' :: b, [], by simp, hc,
        Or.inl ⟨d, r, ['.'], b, by simp, digit1_of (ha d (by simp)) hr, fun x hx => ha x (by simp [hx]), Or.inl rfl, hb⟩, Or.inr rfl⟩
  unfold bsonValue
  rw [hint, hfl, hstod, natOf_eq]
  rfl

/-- **C100 (partial).** A number in scientific notation, `a.bEz` with signs or without, is stored as that number under the same
conditions on the integer part.
Missing: without a point or with a 0 as second digit the number can be stored as text (`C100_float_violated`). -/
theorem C100_exponent_partial (sg a b es z : Str) (x : Char) (hsg : sg = [] ∨ sg = ['+'] ∨ sg = ['-']) (ha : ∀ c ∈ a, digit c = true)
    (hb : ∀ c ∈ b, digit c = true) (hb0 : b ≠ []) (h1 : sg ≠ [] → ∃ d r, a = d :: r ∧ d ≠ '0') (h2 : sg = [] → ∃ d r, a = d :: r ∧ r.head? ≠ some '0')
    (hx : x = 'E' ∨ x = 'e') (hes : es = [] ∨ es = ['+'] ∨ es = ['-']) (hz : ∀ c ∈ z, digit c = true) (hz0 : z ≠ []) :
    bsonValue (sg ++ a ++ '.' :: (b ++ x :: (es ++ z))) =
      .done (.double ((if sg = ['-'] then -1 else 1) * (Nat.ofDigitChars 10 (a ++ b) 0 : Int))
        ((if es = ['-'] then -1 else 1) * (Nat.ofDigitChars 10 z 0 : Int) - (b.length : Int))) := by
  have hdot : digit '.' = false := by decide
  have hxd : digit x = false := by rcases hx with rfl | rfl <;> decide
  have hsz : sign (es ++ z) = ((if es = ['-'] then -1 else 1), z) := by
    rcases hes with rfl | rfl | rfl
    · cases z with
      | nil => exact absurd rfl hz0
      | cons d r => exact sign_digit (hz d (by simp))
    · rfl
    · rfl
  have hexp : expOf (x :: (es ++ z)) = (if es = ['-'] then -1 else 1) * (natOf z : Int) := by
    have he : x = 'e' ∨ x = 'E' := hx.symm
    show (if x = 'e' ∨ x = 'E' then (sign (es ++ z)).1 * (natOf ((sign (es ++ z)).2.takeWhile digit) : Int) else 0) = _
    rw [if_pos he, hsz]
    dsimp only
    rw [takeWhile_all hz]
  have hstod : stod (sg ++ a ++ '.' :: (b ++ x :: (es ++ z))) = .done ((if sg = ['-'] then -1 else 1) * (natOf (a ++ b) : Int),
      (if es = ['-'] then -1 else 1) * (natOf z : Int) - (b.length : Int)) := by
    have hs : sign (sg ++ a ++ '.' :: (b ++ x :: (es ++ z))) = ((if sg = ['-'] then -1 else 1), a ++ '.' :: (b ++ x :: (es ++ z))) := by
      rcases hsg with rfl | rfl | rfl
      · obtain ⟨d, r, rfl, _⟩ := h2 rfl
        exact sign_digit (ha d (by simp))
      · rfl
      · rfl
    unfold stod
    rw [hs]
    dsimp only
    obtain ⟨e1, e2⟩ := takeWhile_stop (b := b ++ x :: (es ++ z)) ha hdot
    obtain ⟨e3, e4⟩ := takeWhile_stop (b := es ++ z) hb hxd
    rw [e1, e2, show fraction ('.' :: (b ++ x :: (es ++ z))) = ((b ++ x :: (es ++ z)).takeWhile digit, (b ++ x :: (es ++ z)).dropWhile digit) from rfl]
    dsimp only
    rw [e3, e4, if_neg (by simp [hb0]), hexp]
  have hint : isInt (sg ++ a ++ '.' :: (b ++ x :: (es ++ z))) = false := by
    rw [← Bool.not_eq_true, isInt_iff]
    have hlen : 1 ≤ (sg ++ a).length := by
      rcases hsg with rfl | rfl | rfl
      · obtain ⟨d, r, rfl, _⟩ := h2 rfl; simp
      · simp
      · simp
    rintro (⟨c, hc, _⟩ | ⟨c, r, hc, _, _, hd⟩)
    · have := congrArg List.length hc
      simp only [List.length_append, List.length_cons, List.length_nil] at this hlen
      omega
    · cases hx : sg ++ a with
      | nil => rw [hx] at hlen; simp at hlen
      | cons y ys =>
        rw [hx] at hc
        simp only [List.cons_append, List.cons.injEq] at hc
        have := hd '.' (by rw [← hc.2]; simp)
        rw [hdot] at this
        cases this
  have hE : (∃ x' y z', x :: (es ++ z) = x' :: (y ++ z') ∧ (x' = 'E' ∨ x' = 'e') ∧ (y = ['+'] ∨ y = ['-'] ∨ y = []) ∧ z' ≠ [] ∧
      ∀ w ∈ z', digit w = true) := ⟨x, es, z, rfl, hx, by tauto, hz0, hz⟩
  have hfl : isFloat (sg ++ a ++ '.' :: (b ++ x :: (es ++ z))) = true := by
    rw [isFloat_iff]
    right
    by_cases hs : sg = []
    · obtain ⟨d, r, rfl, hr⟩ := h2 hs
      subst hs
      refine ⟨d, r ++ '.' :: b, x :: (es ++ z), by simp, digit_class (ha d (by simp)), ?_, Or.inl hE⟩
      cases r with
      | nil => exact Or.inr ⟨b, rfl, hb0, hb⟩
      | cons e r =>
        exact Or.inl ⟨e, r, ['.'], b, by simp, digit1_of (ha e (by simp)) (by simpa using hr), fun x hx => ha x (by simp [hx]), Or.inl rfl, hb⟩
    · obtain ⟨d, r, rfl, hr⟩ := h1 hs
      have hc : ∃ c, sg = [c] ∧ signClass c = true := by
        rcases hsg with rfl | rfl | rfl
        · exact absurd rfl hs
        · exact ⟨_, rfl, by decide⟩
        · exact ⟨_, rfl, by decide⟩
      obtain ⟨c, rfl, hc⟩ := hc
      exact ⟨c, (d :: r) ++ '.' :: b, x :: (es ++ z), by simp, hc,
        Or.inl ⟨d, r, ['.'], b, by simp, digit1_of (ha d (by simp)) hr, fun x hx => ha x (by simp [hx]), Or.inl rfl, hb⟩, Or.inl hE⟩
  unfold bsonValue
  rw [hint, hfl, hstod, natOf_eq, natOf_eq]
  rfl

/-- A number that meets the conditions. -/
example : bsonValue "-1.25E-07".toList = .done (.double (-125) (-9)) := by decide +kernel

/-- **C100 (partial).** A value that begins with a digit or a sign does not stop the program, unless it is an integer out of the range of
`long`. -/
theorem C100_no_throw_partial (c : Char) (r : Str) (hc : digit c = true ∨ c = '+' ∨ c = '-')
    (hr : (∀ d ∈ r, digit d = true) → Nat.ofDigitChars 10 (c :: r) 0 < 2 ^ 63 ∧ Nat.ofDigitChars 10 r 0 < 2 ^ 63) :
    ∃ v, bsonValue (c :: r) = .done v := by
  unfold bsonValue
  split
  · rename_i hi
    have hall : (∀ d ∈ r, digit d = true) ∧ (digit c = true ∨ r ≠ []) := by
      rcases isInt_iff.1 hi with ⟨c', h, h'⟩ | ⟨c', r', h, _, h1, h2⟩
      · simp only [List.cons.injEq] at h; obtain ⟨rfl, rfl⟩ := h; exact ⟨by simp, Or.inl h'⟩
      · simp only [List.cons.injEq] at h; obtain ⟨rfl, rfl⟩ := h; exact ⟨h2, Or.inr h1⟩
    obtain ⟨hr1, hr2⟩ := hr hall.1
    rw [← natOf_eq] at hr1 hr2
    have : ∃ v, stol (c :: r) = .done v := by
      by_cases hd : digit c = true
      · unfold stol
        rw [sign_digit hd]
        dsimp only
        rw [takeWhile_all (by simpa [hd] using hall.1), if_neg (by simp), if_pos (by omega)]
        exact ⟨_, rfl⟩
      · have hr0 := hall.2.resolve_left hd
        rcases hc.resolve_left hd with rfl | rfl
        · unfold stol
          have : sign ('+' :: r) = (1, r) := rfl
          rw [this]
          dsimp only
          rw [takeWhile_all hall.1, if_neg hr0, if_pos (by omega)]
          exact ⟨_, rfl⟩
        · unfold stol
          have : sign ('-' :: r) = (-1, r) := rfl
          rw [this]
          dsimp only
          rw [takeWhile_all hall.1, if_neg hr0, if_pos (by omega)]
          exact ⟨_, rfl⟩
    obtain ⟨v, hv⟩ := this
    rw [hv]
    exact ⟨_, rfl⟩
  · split
    · rename_i hf
      have : ∃ v, stod (c :: r) = .done v := by
        by_cases hd : digit c = true
        · unfold stod
          rw [sign_digit hd]
          dsimp only
          rw [if_neg (by simp [hd])]
          exact ⟨_, rfl⟩
        · have hm : ∃ x r', r = x :: r' ∧ (digit x = true ∨ x = '.' ∧ ∃ y r'', r' = y :: r'' ∧ digit y = true) := by
            rcases isFloat_iff.1 hf with ⟨c', h, h'⟩ | ⟨c', m, e, h, _, hm, _⟩
            · simp only [List.cons.injEq] at h; obtain ⟨rfl, rfl⟩ := h; exact absurd h' hd
            · simp only [List.cons.injEq] at h
              obtain ⟨rfl, rfl⟩ := h
              rcases hm with ⟨d, a, p, b, rfl, hd', _⟩ | ⟨b, rfl, hb, hb'⟩
              · refine ⟨d, _, rfl, Or.inl ?_⟩
                unfold digit1 at hd'
                unfold digit
                have hd' := of_decide_eq_true hd'
                have e0 : '0'.toNat = 48 := rfl
                have e1 : '1'.toNat = 49 := rfl
                exact decide_eq_true (by omega)
              · cases b with
                | nil => exact absurd rfl hb
                | cons y b => exact ⟨'.', _, rfl, Or.inr ⟨rfl, y, _, rfl, hb' y (by simp)⟩⟩
          have hs : ∃ i : Int, sign (c :: r) = (i, r) := by
            rcases hc.resolve_left hd with rfl | rfl
            · exact ⟨1, rfl⟩
            · exact ⟨-1, rfl⟩
          obtain ⟨i, hs⟩ := hs
          obtain ⟨x, r', rfl, hx⟩ := hm
          unfold stod
          rw [hs]
          dsimp only
          rcases hx with hx | ⟨rfl, y, r'', rfl, hy⟩
          · rw [if_neg (by simp [hx])]
            exact ⟨_, rfl⟩
          · have hdot : digit '.' = false := by decide
            rw [List.takeWhile_cons, List.dropWhile_cons, hdot]
            simp only [Bool.false_eq_true, if_false]
            rw [if_neg (by simp [hy, fraction])]
            exact ⟨_, rfl⟩
      obtain ⟨v, hv⟩ := this
      rw [hv]
      exact ⟨_, rfl⟩
    · exact ⟨_, rfl⟩

/-- The conditions are met, and the values are the expected ones. -/
example : bsonValue "-42".toList = .done (.long (-42)) ∧ bsonValue "12.5".toList = .done (.double 125 (-1)) ∧
    bsonValue "-1.25".toList = .done (.double (-125) (-2)) ∧ bsonValue "0.5".toList = .done (.double 5 (-1)) ∧
    bsonValue "random".toList = .done (.text "random".toList) ∧ bsonValue "".toList = .done (.text []) := by decide +kernel

/-- **C100 violated.** Text that consists of one character between `(` and `|` and of digits is taken for an integer, and `std::stol` throws:
for instance a host that is called `n1`. A fraction without leading zero is taken for an integer, too, and throws. -/
theorem C100_throw_violated : bsonValue "n1".toList = .ub ∧ bsonValue "Z80".toList = .ub ∧ bsonValue ".5".toList = .ub ∧
    bsonValue "x12.5".toList = .ub := by decide +kernel

/-- **C100 violated.** All of these texts throw: a letter and digits. -/
theorem C100_letter_violated (c : Char) (r : Str) (h1 : 'A'.toNat ≤ c.toNat) (h2 : c.toNat ≤ 'z'.toNat) (hr : r ≠ [])
    (hd : ∀ d ∈ r, digit d = true) : bsonValue (c :: r) = .ub := by
  have eA : 'A'.toNat = 65 := rfl
  have ez : 'z'.toNat = 122 := rfl
  have e9 : '9'.toNat = 57 := rfl
  have e1 : '('.toNat = 40 := rfl
  have e2 : '|'.toNat = 124 := rfl
  have hcls : signClass c = true := by
    unfold signClass
    have : decide ('('.toNat ≤ c.toNat ∧ c.toNat ≤ '|'.toNat) = true := decide_eq_true (by omega)
    rw [this]; rfl
  have hnd : digit c = false := by
    unfold digit
    exact decide_eq_false (by omega)
  have hs : sign (c :: r) = (1, c :: r) := by
    have h3 : c ≠ '-' := by rintro rfl; revert h1; decide
    have h4 : c ≠ '+' := by rintro rfl; revert h1; decide
    simp [sign, h3, h4]
  unfold bsonValue
  rw [if_pos (isInt_iff.2 (Or.inr ⟨c, r, rfl, hcls, hr, hd⟩))]
  unfold stol
  rw [hs]
  simp [hnd, Res.bind]

/-- **C100 violated.** Integers out of the range of `long` throw. -/
theorem C100_range_violated : bsonValue "9223372036854775808".toList = .ub := by decide +kernel

/-- **C100 violated.** Numbers are stored as text: those whose second digit is 0, negative ones below 1, and those in the notation in which
streams print large and small numbers. -/
theorem C100_float_violated : (∀ s ∈ ["10.5".toList, "100.25".toList, "-0.5".toList, "1e+06".toList, "1e-05".toList, "1.".toList],
    bsonValue s = .done (.text s)) := by decide +kernel

/-- **C100 violated.** Text that is not a number is stored as a number: of a version like `.1.5` only the first part is kept. -/
theorem C100_truncated_violated : bsonValue ".1.5".toList = .done (.double 1 (-1)) := by decide +kernel

end Classify
end Verif
